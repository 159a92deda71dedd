import Mathlib.Data.Real.Basic
import Mathlib.Logic.Function.Basic

/-!
# Which arrays of a QGField share memory

Source: `/repo/src/falwa/oopinterface.py` (line numbers below) and `/repo/src/falwa/data_storage.py` (`DS`).

numpy arrays are references. This model keeps a heap of buffers and, for every array attribute of a `QGField` object and of its storage
objects, the view the attribute is bound to. Three things are distinguished:
* an attribute is bound to a new array (the result of arithmetic, of `interp1d`, or of an f2py routine),
* an attribute is bound to `np.swapaxes` of another one, which is a view of the same buffer,
* the hemispheric setters (DS 41-45, 53-62) write into the array the attribute is bound to.

Arrays are functions of the index list; `swapaxes(0, 2)` of a three-dimensional array and `swapaxes(0, 1)` of a two-dimensional one both
reverse the index list. What is computed at a line is an arbitrary function of all attributes and of the argument `ncforce`, so the
theorems hold for every numerical content. Which rows a setter writes is modelled in `Model/Storage.lean`; here the value written may
depend on the old content. A method that raises an exception has run only a part of its statements, therefore a call runs any number of
them. Attributes that are `None` before their first assignment have an unspecified content here (`Model/Protocol.lean` has the guards).
Masked input is `variable.data` (line 278), again a view. `maxit`, `tol` and the other scalars are constants of the object.
-/

namespace Falwa.Alias

/-- Contents of an array. -/
abbrev Arr := List ℤ → ℝ

/-- Array attributes: grids and fields of the object, interpolated fields, domain averages, reference states, layerwise terms,
barotropic terms, output terms (lines 111-153, DS 112-361). -/
inductive Attr where
  | ylatIn | ylat | xlon | plev
  | uField | vField | thetaField
  | u | v | theta | avort | qgpv
  | t0 | tn0 | ts0 | stat | statN | statS
  | qref | uref | ptref
  | lwa | astar1 | astar2 | ua1 | ua2 | ep1 | ep2 | ep3 | stretch | ncforce
  | ua1baro | ua2baro | ep1baro | ep2baro | ep3baro | ep4 | ncforceBaro | uBaro | lwaBaro | astar1Baro | astar2Baro
  | f1 | f2 | f3 | conv | div | heat | ncforceOut | fluxLambda | fluxPhi
  deriving DecidableEq

/-- Blocks of memory: arrays passed by the user (0 to 5: `u_field`, `v_field`, `t_field`, `ylat`, `xlon`, `plev`), arrays made by the
constructor, arrays made by later calls, and arrays made only to be returned. -/
inductive Buf where
  | input (n : ℕ)
  | init (a : Attr)
  | new (n : ℕ)
  | copy (n : ℕ)
  deriving DecidableEq

/-- A reference to an array: the buffer, and whether the axes are reversed. -/
structure View where
  buf : Buf
  swapped : Bool
  deriving DecidableEq

/-- Options of the object: an even number of latitudes without equator (`need_latitude_interpolation`, lines 314-328),
`northern_hemisphere_results_only`, `data_on_evenly_spaced_pseudoheight_grid`, and the class. -/
structure Cfg where
  even : Bool
  northOnly : Bool
  onPseudo : Bool
  nhn22 : Bool

/-- The numerical content of the code. -/
structure Code where
  /-- arrays made by the constructor, from the arrays of the user -/
  start : Attr → (ℕ → Arr) → Arr
  /-- the value assigned to an attribute at a line, from the attributes and the argument `ncforce` -/
  line : ℕ → Attr → (Attr → Arr) → Arr → Arr
  /-- `_interp_back` of an attribute, lines 363-374 -/
  back : Attr → (Attr → Arr) → Arr
  /-- `qref_correct_unit`, DS 169-178 -/
  qrefUnit : (Attr → Arr) → Arr

/-- Memory, the attributes, and the arrays the user holds. -/
structure State where
  heap : Buf → Arr
  next : ℕ
  env : Attr → View
  handles : List View

/-- Reverse the index list. -/
def flip (b : Bool) (i : List ℤ) : List ℤ := if b then i.reverse else i

/-- The array seen through a view. -/
def State.read (s : State) (v : View) : Arr := fun i => s.heap v.buf (flip v.swapped i)

/-- Assignment to all elements seen through a view. -/
def State.write (s : State) (v : View) (x : Arr) : State :=
  { s with heap := Function.update s.heap v.buf fun i => x (flip v.swapped i) }

/-- The values of all attributes. -/
def State.vals (s : State) (a : Attr) : Arr := s.read (s.env a)

/-- Assignments of the source, with the line number. -/
inductive Stmt where
  /-- the attributes are bound to new arrays -/
  | fresh (line : ℕ) (as : List Attr)
  /-- `a = np.swapaxes(b, ...)` -/
  | view (line : ℕ) (a b : Attr)
  /-- the hemispheric setters write into the arrays the attributes are bound to -/
  | into (line : ℕ) (as : List Attr)

/-- Bind `a` to a new array. -/
def State.bind (s : State) (a : Attr) (x : Arr) : State where
  heap := Function.update s.heap (.new s.next) x
  next := s.next + 1
  env := Function.update s.env a ⟨.new s.next, false⟩
  handles := s.handles

/-- Run one assignment. In an assignment to several targets all values are computed first. -/
def Stmt.exec (code : Code) (nc : Arr) : Stmt → State → State
  | .fresh l as, s => as.foldl (fun t a => t.bind a (code.line l a s.vals nc)) s
  | .view _ a b, s => { s with env := Function.update s.env a ⟨(s.env b).buf, !(s.env b).swapped⟩ }
  | .into l as, s => as.foldl (fun t a => t.write (t.env a) (code.line l a s.vals nc)) s

/-- Public methods that change the object. -/
inductive Method where
  | interpolate
  | references
  | lwaOnly
  | fluxes
  | layerwise

/-- `interpolate_fields`, lines 509-522, and `_compute_qgpv`, lines 1567-1587 and 1743-1762. -/
def interpolate (c : Cfg) : List Stmt :=
  (if c.onPseudo then [.view 520 .u .uField, .view 521 .v .vField, .view 522 .theta .thetaField]
    else [.fresh 520 [.u], .fresh 521 [.v], .fresh 522 [.theta]]) ++
  (if c.nhn22 then [.fresh 1743 [.ts0], .fresh 1744 [.tn0], .fresh 1745 [.statS], .fresh 1746 [.statN]]
    else [.fresh 1567 [.tn0], .fresh 1568 [.ts0], .fresh 1569 [.t0], .fresh 1570 [.stat], .fresh 1571 [.statN], .fresh 1572 [.statS]]) ++
  [.fresh 1573 [.qgpv, .avort]]

/-- `_compute_reference_states`, lines 1609-1628 and 1782-1806 (numbered as in the class NH18). -/
def references (c : Cfg) : List Stmt :=
  [.into 1609 [.qref, .uref, .ptref]] ++ (if c.northOnly then [] else [.into 1622 [.qref, .uref, .ptref]])

/-- `compute_lwa_only`, lines 648-690. Lines 689-690 create attributes of the storage object that nothing reads (C70). -/
def lwaOnly (c : Cfg) : List Stmt :=
  [.into 648 [.lwaBaro, .uBaro], .into 665 [.lwa], .into 666 [.astar1], .into 667 [.astar2]] ++
  (if c.northOnly then [] else [.into 671 [.lwaBaro, .uBaro], .into 688 [.lwa]])

/-- `compute_lwa_and_barotropic_fluxes`, lines 734-793 and 908-944. -/
def fluxes (c : Cfg) : List Stmt :=
  [.into 734 [.lwaBaro, .uBaro, .ua1baro, .ua2baro, .ep1baro, .ep2baro, .ep3baro, .ep4, .astar1Baro, .astar2Baro, .ncforceBaro],
    .into 759 [.lwa]] ++
  (if c.northOnly then [] else
    [.into 765 [.lwaBaro, .uBaro, .ua1baro, .ua2baro, .ep1baro, .ep4, .astar1Baro, .astar2Baro], .into 790 [.ep2baro],
      .into 791 [.ep3baro], .into 792 [.ncforceBaro], .into 793 [.lwa]]) ++
  [.fresh 910 [.div], .fresh 919 [.conv], .view 925 .f1 .ua1baro, .view 927 .f2 .ua2baro, .view 929 .f3 .ep1baro,
    .view 931 .heat .ep4, .view 933 .ncforceOut .ncforceBaro, .fresh 937 [.fluxLambda], .fresh 944 [.fluxPhi]]

/-- `_compute_layerwise_lwa_fluxes_wrapper`, lines 1085-1156, and `_compute_stretch_term`, lines 1057-1061. -/
def layerwise (c : Cfg) : List Stmt :=
  [.into 1085 [.astar1, .astar2, .ncforce, .ua1, .ua2, .ep1, .ep2, .ep3, .ep4]] ++
  (if c.northOnly then [] else
    [.into 1118 [.astar1, .astar2, .ua1, .ua2, .ep1, .ep4], .into 1146 [.ep2], .into 1147 [.ep3], .into 1148 [.ncforce]]) ++
  [.fresh 1151 [.lwa], if c.northOnly then .into 1059 [.stretch] else .fresh 1061 [.stretch]]

/-- The assignments of a method. -/
def body (c : Cfg) : Method → List Stmt
  | .interpolate => interpolate c
  | .references => references c
  | .lwaOnly => lwaOnly c
  | .fluxes => fluxes c
  | .layerwise => layerwise c

/-- What the attributes are bound to after the constructor, lines 111-183 and 189-240: `ylat`, `xlon`, `plev` and, unless the latitudes
are interpolated, `u_field` and `v_field` are the arrays of the user. -/
def env₀ (c : Cfg) : Attr → View
  | .ylatIn => ⟨.input 3, false⟩
  | .xlon => ⟨.input 4, false⟩
  | .plev => ⟨.input 5, false⟩
  | .ylat => if c.even then ⟨.init .ylat, false⟩ else ⟨.input 3, false⟩
  | .uField => if c.even then ⟨.init .uField, false⟩ else ⟨.input 0, false⟩
  | .vField => if c.even then ⟨.init .vField, false⟩ else ⟨.input 1, false⟩
  | a => ⟨.init a, false⟩

/-- The state after the constructor. The user holds the arrays passed. -/
def start (c : Cfg) (code : Code) (inp : ℕ → Arr) : State where
  heap
    | .input n => inp n
    | .init a => code.start a inp
    | _ => fun _ => 0
  next := 0
  env := env₀ c
  handles := (List.range 6).map fun n => ⟨.input n, false⟩

/-- Ways to obtain an array from the object. -/
inductive Getter where
  /-- a property that ends with `_return_interp_variables`, lines 1221-1512 -/
  | prop (a : Attr)
  /-- the property `qref`, lines 1268-1276 -/
  | qref
  /-- the array as it is stored: `static_stability`, `ylat`, arrays of `layerwise_flux_terms_storage`, elements of the tuple returned by
  `compute_lwa_and_barotropic_fluxes` (lines 952-961, where the last three are swapped) -/
  | item (a : Attr) (swap : Bool)

/-- Output terms are stored in the order of Python already (lines 925-944), the others are swapped by `fortran_to_python`. -/
def swaps : Attr → Bool
  | .f1 | .f2 | .f3 | .conv | .div | .heat | .ncforceOut | .fluxLambda | .fluxPhi => false
  | _ => true

/-- Give the user a view. -/
def State.give (s : State) (v : View) : State := { s with handles := s.handles ++ [v] }

/-- Give the user a new array. -/
def State.giveCopy (s : State) (x : Arr) : State where
  heap := Function.update s.heap (.copy s.next) x
  next := s.next + 1
  env := s.env
  handles := s.handles ++ [⟨.copy s.next, false⟩]

/-- A view of the array an attribute is bound to. -/
def State.viewOf (s : State) (a : Attr) (swap : Bool) : View := ⟨(s.env a).buf, xor (s.env a).swapped swap⟩

/-- `_return_interp_variables`, lines 376-402: a new array on even grids, the variable itself otherwise. -/
def State.get (c : Cfg) (code : Code) (s : State) : Getter → State
  | .prop a => if c.even then s.giveCopy (code.back a s.vals) else s.give (s.viewOf a (swaps a))
  | .qref => s.giveCopy (code.qrefUnit s.vals)
  | .item a sw => s.give (s.viewOf a sw)

/-- What the user does: call a method (of which `n` assignments are run), read a result, or edit an array in place. -/
inductive Act where
  | call (m : Method) (n : ℕ) (ncforce : Arr)
  | get (g : Getter)
  | edit (h : ℕ) (f : Arr → Arr)

/-- In-place change of an array the user holds. -/
def State.edit (s : State) (h : ℕ) (f : Arr → Arr) : State :=
  match s.handles[h]? with
  | some v => s.write v (f (s.read v))
  | none => s

/-- One step of a session. -/
def Act.run (c : Cfg) (code : Code) : Act → State → State
  | .call m n nc, s => ((body c m).take n).foldl (fun t x => x.exec code nc t) s
  | .get g, s => s.get c code g
  | .edit h f, s => s.edit h f

/-- A session. -/
def runAll (c : Cfg) (code : Code) (acts : List Act) (s : State) : State := acts.foldl (fun t x => x.run c code t) s

end Falwa.Alias
