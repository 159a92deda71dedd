import Verif.Model.PyError
import Mathlib.Data.List.Nodup

/-!
# Calls of the compiled routines

`/repo/src/falwa/oopinterface.py` calls the Fortran routines through wrappers that f2py builds from the declarations. The model says
which calls a wrapper accepts and which dummy argument gets which value. Rules of f2py that are used: arguments with `intent(out)` are
returned, in the order of the Fortran argument list; integers that occur in the shape of an input array are optional, as they are
computed from the array, and follow the required arguments; all others are required; names are in lower case. Values are of any type.
Types and shapes of the values are not checked here (shapes: `Model/Shapes.lean`).
-/

namespace Falwa.F2py

/-- How f2py treats a dummy argument. -/
inductive Kind
  | need
  | dim
  | out
  deriving DecidableEq

/-- A routine: its dummy arguments in the order of the Fortran argument list. -/
abbrev Sig := List (String × Kind)

/-- Names of a kind, in order. -/
def names (s : Sig) (k : Kind) : List String := (s.filter fun d => d.2 = k).map Prod.fst

/-- Arguments of the Python function: required ones, then the sizes. -/
def params (s : Sig) : List String := names s .need ++ names s .dim

variable {α : Type*}

/-- Values given in a call, positional ones first. -/
def given (s : Sig) (pos : List α) (kw : List (String × α)) : List (String × α) := (params s).zip pos ++ kw

/-- Binding of positional and keyword arguments, and unpacking of the result into `n` targets (`none` if it is not unpacked). -/
def call (s : Sig) (pos : List α) (kw : List (String × α)) (n : Option ℕ) : Except PyError (String → Option α) :=
  if (params s).length < pos.length then .error .typeError
  else if ¬ ((given s pos kw).map Prod.fst).Nodup then .error .typeError
  else if ¬ ∀ x ∈ kw.map Prod.fst, x ∈ params s then .error .typeError
  else if ¬ ∀ x ∈ names s .need, x ∈ (given s pos kw).map Prod.fst then .error .typeError
  else if n ≠ none ∧ n ≠ some (names s .out).length then .error .valueError
  else .ok fun x => (given s pos kw).lookup x

/-- Keyword arguments with values `v`. -/
def kws (ns : List String) (v : String → α) : List (String × α) := ns.map fun x => (x, v x)

/-- Names with one kind. -/
def all (k : Kind) (ns : List String) : Sig := ns.map fun x => (x, k)

open Kind

/-- `compute_qgpv.f90` lines 1-10. -/
def qgpv : Sig := all dim ["nlon", "nlat", "kmax"] ++
  all need ["ut", "vt", "theta", "height", "t0", "stat", "aa", "omega", "dz", "hh", "rr", "cp"] ++ all out ["pv", "avort"]

/-- `compute_qgpv_direct_inv.f90` lines 1-11. -/
def qgpvDirect : Sig := all dim ["nlon", "nlat", "kmax"] ++
  all need ["jd", "uq", "vq", "tq", "height", "ts0", "tn0", "stats", "statn", "aa", "omega", "dz", "hh", "rr", "cp"] ++
  all out ["pv", "avort"]

/-- `compute_reference_states.f90` lines 1-9. -/
def refStates : Sig := all need ["pv", "uu", "pt", "stat"] ++ all dim ["nlon", "nlat", "kmax"] ++
  all need ["jd", "npart", "maxits", "a", "om", "dz", "eps", "h", "dphi", "dlambda", "r", "cp", "rjac"] ++
  all out ["qref", "u", "tref", "num_of_iter"]

/-- `compute_qref_and_fawa_first.f90` lines 1-12. -/
def qrefFirst : Sig := all need ["pv", "uu", "vort", "pt", "tn0"] ++ all dim ["imax", "jmax", "kmax"] ++
  all need ["nd", "nnd", "jb", "jd", "a", "omega", "dz", "h", "dphi", "dlambda", "rr", "cp"] ++
  all out ["qref", "ubar", "tbar", "fawa", "ckref", "tjk", "sjk"]

/-- `matrix_b4_inversion.f90` lines 1-9. -/
def matrixBefore : Sig := all need ["k", "jmax"] ++ all dim ["kmax", "nd"] ++ all need ["jb"] ++ all dim ["jd"] ++
  all need ["z", "statn", "qref", "ckref", "sjk", "a", "om", "dz", "h", "rr", "cp"] ++ all out ["qjj", "djj", "cjj", "rj"]

/-- `matrix_after_inversion.f90` lines 1-5. -/
def matrixAfter : Sig := all need ["k"] ++ all dim ["kmax", "jd"] ++ all need ["qjj", "djj", "cjj", "rj", "sjk", "tjk"]

/-- `upward_sweep.f90` lines 1-6. -/
def sweep : Sig := all need ["jmax"] ++ all dim ["kmax", "nd"] ++ all need ["jb"] ++ all dim ["jd"] ++
  all need ["sjk", "tjk", "ckref", "tb", "qref_over_cor"] ++ all out ["tref", "qref", "u"] ++
  all need ["a", "om", "dz", "h", "rr", "cp"]

/-- `compute_flux_dirinv.f90` lines 1-14. -/
def flux : Sig := all need ["pv", "uu", "vv", "pt", "ncforce", "tn0", "qref", "uref", "tref"] ++
  all dim ["imax", "jmax", "kmax", "nd"] ++ all need ["jb"] ++ all dim ["jd"] ++
  all need ["is_nhem", "a", "om", "dz", "h", "rr", "cp", "prefac"] ++
  all out ["astar1", "astar2", "ncforce3d", "ua1", "ua2", "ep1", "ep2", "ep3", "ep4"]

/-- `compute_lwa_only_nhn22.f90` lines 1-11. -/
def lwaOnly : Sig := all need ["pv", "uu", "qref"] ++ all dim ["imax", "jmax", "kmax", "nd"] ++
  all need ["jb", "is_nhem", "a", "om", "dz", "h", "rr", "cp", "prefac"] ++ all out ["astarbaro", "ubaro", "astar1", "astar2"]

/-- A call with keywords only: routine, keywords, number of targets. -/
structure Site where
  sig : Sig
  kw : List String
  targets : Option ℕ

/-- Lines 430-448, 1086-1112 and 1118-1145: the three calls pass the same keywords. -/
def fluxSite : Site :=
  ⟨flux, ["pv", "uu", "vv", "pt", "ncforce", "tn0", "qref", "uref", "tref", "jb", "is_nhem", "a", "om", "dz", "h", "rr", "cp", "prefac"],
    some 9⟩

/-- The keyword calls of `oopinterface.py` besides that of `_compute_lwa_flux_dirinv`: lines 430-448, 1086-1112 and 1118-1145, lines
648-664 and 671-687, lines 1656-1674 (the callers unpack four results, lines 1610-1640), 1812-1829, 1840-1856, 1863-1870, 1872-1885. -/
def sites : List Site :=
  [fluxSite,
    ⟨lwaOnly, ["pv", "uu", "qref", "jb", "is_nhem", "a", "om", "dz", "h", "rr", "cp", "prefac"], some 4⟩,
    ⟨refStates, ["pv", "uu", "pt", "stat", "jd", "npart", "maxits", "a", "om", "dz", "eps", "h", "dphi", "dlambda", "r", "cp", "rjac"],
      some 4⟩,
    ⟨qrefFirst, ["pv", "uu", "vort", "pt", "tn0", "nd", "nnd", "jb", "jd", "a", "omega", "dz", "h", "dphi", "dlambda", "rr", "cp"], some 7⟩,
    ⟨matrixBefore, ["k", "jmax", "jb", "jd", "z", "statn", "qref", "ckref", "sjk", "a", "om", "dz", "h", "rr", "cp"], some 4⟩,
    ⟨matrixAfter, ["k", "qjj", "djj", "cjj", "rj", "sjk", "tjk"], none⟩,
    ⟨sweep, ["jmax", "jb", "sjk", "tjk", "ckref", "tb", "qref_over_cor", "a", "om", "dz", "h", "rr", "cp"], some 3⟩]

/-- `_compute_lwa_flux_dirinv`, lines 1906-1927. The result is returned as it is. -/
def dirinvSite : Site :=
  ⟨flux, ["pv", "uu", "vv", "pt", "tn0", "qref", "uref", "tref", "jb", "is_nhem", "a", "om", "dz", "h", "rr", "cp", "prefac"], none⟩

/-- Call at a site with values `v`. -/
def Site.run (c : Site) (v : String → α) : Except PyError (String → Option α) := call c.sig [] (kws c.kw v) c.targets

/-- The loop over the slots in `/repo/scripts/nhn_grl2022/sample_run_script.py` lines 113-137, from slot `t` on, for `k` slots: `prep t`
is what reading, constructor, `interpolate_fields` and `compute_reference_states` do, `v t` the values of the arguments. Returns how
the loop ends and the slots that were written. -/
def sampleRun (prep : ℕ → Except PyError Unit) (v : ℕ → String → α) : ℕ → ℕ → Except PyError Unit × List ℕ
  | _, 0 => (.ok (), [])
  | t, k + 1 =>
    match prep t, dirinvSite.run (v t) with
    | .error e, _ => (.error e, [])
    | .ok _, .error e => (.error e, [])
    | .ok _, .ok _ => ((sampleRun prep v (t + 1) k).1, t :: (sampleRun prep v (t + 1) k).2)

end Falwa.F2py
