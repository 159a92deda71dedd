import Mathlib.Data.Int.Notation
import Mathlib.Data.Nat.Notation
import Mathlib.Data.List.Forall2

/-!
# Array accesses of the Fortran routines

Source: the nine routines of `/repo/src/falwa/f90_modules` that `meson.build` lists. Every routine is written as the list of the array
elements that it reads and writes, in the order of the source lines, with its loops and the conditions on subscripts. Values are left out:
a branch that depends on values contributes the accesses of both sides, and leaving the sweep loop of `compute_reference_states` early is
ignored, so the list can only be too long. The only subscript that depends on values is `ind`; it is a parameter.

A statement that writes to an element and also reads it is listed once for it. Whole arrays and sections `x(:,:)` cannot be out of bounds
and are left out; a `:` beside other subscripts runs through its dimension.
-/

namespace Falwa

namespace Bounds

/-- An array with its declared extents; every lower bound is 1. -/
structure FArr where
  name : String
  dims : List ℤ

/-- One access: line of the source, array, subscripts. -/
structure Acc where
  line : ℕ
  arr : FArr
  ix : List ℤ

/-- The element exists. -/
def Acc.Inside (a : Acc) : Prop := List.Forall₂ (fun i d => 1 ≤ i ∧ i ≤ d) a.ix a.arr.dims

/-- Shorthand for an access. -/
def FArr.at (x : FArr) (line : ℕ) (ix : List ℤ) : Acc := ⟨line, x, ix⟩

/-- `do v = lo, hi`; also for the same values in descending order. -/
def loop (lo hi : ℤ) (f : ℤ → List Acc) : List Acc := (List.range (hi + 1 - lo).toNat).flatMap fun n : ℕ => f (lo + (n : ℤ))

/-- `if (c) then`. -/
def when (c : Prop) [Decidable c] (t : List Acc) : List Acc := if c then t else []

/-- Every access is in bounds. -/
def Safe (t : List Acc) : Prop := ∀ a ∈ t, a.Inside

/-! ## `compute_reference_states.f90` -/

/-- Arguments that matter for subscripts; `ind k i j` is `ind` on line 86. -/
structure RefDims where
  nlon : ℤ
  nlat : ℤ
  kmax : ℤ
  jd : ℤ
  npart : ℤ
  maxits : ℤ
  ind : ℤ → ℤ → ℤ → ℤ

namespace RefDims

variable (D : RefDims)

/-- Lines 6, 8, 12-22: the declarations. -/
def cube (s : String) : FArr := ⟨s, [D.nlon, D.nlat, D.kmax]⟩
/-- Fields of one level, lines 12-14. -/
def level (s : String) : FArr := ⟨s, [D.nlon, D.nlat]⟩
/-- Arrays of rows and levels, lines 8, 17-22. -/
def rows (s : String) : FArr := ⟨s, [D.jd, D.kmax]⟩
/-- Arrays of partitions, lines 15-16. -/
def part (s : String) : FArr := ⟨s, [D.npart]⟩
/-- Profiles, lines 6, 15, 17. -/
def prof (s : String) : FArr := ⟨s, [D.kmax]⟩
/-- Arrays of rows, line 17. -/
def lats (s : String) : FArr := ⟨s, [D.jd]⟩

/-- Lines 35-66: latitudes, heights, zonal and hemispheric means. -/
def means : List Acc :=
  (loop 1 D.jd fun nn => [(D.lats "phi").at 36 [nn], (D.lats "alat").at 37 [nn]]) ++
  (loop 1 D.kmax fun k => [(D.prof "z").at 41 [k]]) ++
  (loop D.jd D.nlat fun j =>
    (loop 1 D.kmax fun l => [(D.rows "qbar").at 47 [j - (D.jd - 1), l], (D.rows "tbar").at 48 [j - (D.jd - 1), l],
      (D.rows "ubar").at 49 [j - (D.jd - 1), l]]) ++
    (loop 1 D.nlon fun i => loop 1 D.kmax fun l =>
      [(D.rows "qbar").at 51 [j - (D.jd - 1), l], (D.cube "pv").at 51 [i, j, l],
       (D.rows "tbar").at 52 [j - (D.jd - 1), l], (D.cube "pt").at 52 [i, j, l],
       (D.rows "ubar").at 53 [j - (D.jd - 1), l], (D.cube "uu").at 53 [i, j, l]])) ++
  (loop D.jd D.nlat fun j => loop 1 D.kmax fun l => [(D.prof "tb").at 63 [l], (D.rows "tbar").at 63 [j - (D.jd - 1), l]])

/-- Lines 68-117: area analysis and circulation. -/
def area : List Acc :=
  loop 2 (D.kmax - 1) fun k =>
    (loop 1 D.nlon fun i => loop 1 D.nlat fun j => [(D.cube "pv").at 69 [i, j, k], (D.level "pv2").at 69 [i, j],
      (D.cube "uu").at 70 [i, j, k], (D.level "u2").at 70 [i, j], (D.cube "pt").at 71 [i, j, k], (D.level "pt2").at 71 [i, j]]) ++
    (loop 1 D.npart fun nn => [(D.part "qn").at 81 [nn]]) ++
    (loop 1 D.nlat fun j => loop 1 D.nlon fun i =>
      [(D.level "pv2").at 86 [i, j], (D.part "an").at 88 [D.ind k i j], (D.part "cn").at 89 [D.ind k i j],
       (D.level "pv2").at 89 [i, j]]) ++
    [(D.part "aan").at 92 [1], (D.part "ccn").at 93 [1]] ++
    (loop 2 D.npart fun nn => [(D.part "aan").at 95 [nn], (D.part "aan").at 95 [nn - 1], (D.part "an").at 95 [nn],
      (D.part "ccn").at 96 [nn], (D.part "ccn").at 96 [nn - 1], (D.part "cn").at 96 [nn]]) ++
    (loop 1 (D.jd - 1) fun j => loop 1 (D.npart - 1) fun nn =>
      [(D.part "aan").at 100 [nn], (D.lats "alat").at 100 [j], (D.part "aan").at 100 [nn + 1],
       (D.rows "qref").at 102 [j, k], (D.part "qn").at 102 [nn], (D.part "qn").at 102 [nn + 1],
       (D.rows "cref").at 103 [j, k], (D.part "ccn").at 103 [nn], (D.part "ccn").at 103 [nn + 1]]) ++
    [(D.rows "qref").at 108 [D.jd, k], (D.rows "cbar").at 110 [D.jd, k]] ++
    (loop 1 (D.jd - 1) fun j => [(D.rows "cbar").at 113 [j, k], (D.rows "cbar").at 113 [j + 1, k],
      (D.rows "qbar").at 113 [j + 1, k], (D.rows "qbar").at 113 [j, k]])

/-- Lines 122-170: normalisation and coefficients. -/
def coefficients : List Acc :=
  (loop 2 D.jd fun j => loop 1 D.kmax fun l => [(D.rows "qref").at 125 [j, l]]) ++
  (loop 2 (D.kmax - 1) fun k => [(D.rows "qref").at 129 [1, k], (D.rows "qref").at 129 [2, k], (D.rows "qref").at 129 [3, k]]) ++
  (loop 2 (D.jd - 1) fun j => loop 2 (D.kmax - 1) fun k =>
    [(D.prof "z").at 146 [k + 1], (D.prof "z").at 146 [k], (D.prof "z").at 147 [k - 1],
     (D.prof "stat").at 148 [k + 1], (D.prof "stat").at 148 [k], (D.prof "stat").at 149 [k - 1],
     (D.rows "ajk").at 155 [j, k], (D.rows "bjk").at 156 [j, k], (D.rows "cjk").at 157 [j, k], (D.rows "djk").at 158 [j, k],
     (D.rows "ejk").at 159 [j, k], (D.rows "fjk").at 160 [j, k], (D.rows "qref").at 160 [j + 1, k],
     (D.rows "qref").at 160 [j - 1, k]]) ++
  (loop 2 (D.jd - 1) fun j => loop 2 (D.kmax - 1) fun k => [(D.rows "fjk").at 168 [j, k]])

/-- Lines 174-209: the sweeps. -/
def sweeps : List Acc :=
  loop 1 D.maxits fun nnn =>
    (loop 2 (D.jd - 1) fun j =>
      (loop 2 (D.kmax - 1) fun k => when ((j + k) % 2 = nnn % 2)
        [(D.rows "ajk").at 179 [j, k], (D.rows "u").at 179 [j + 1, k], (D.rows "bjk").at 179 [j, k], (D.rows "u").at 179 [j - 1, k],
         (D.rows "cjk").at 180 [j, k], (D.rows "u").at 180 [j, k + 1], (D.rows "djk").at 180 [j, k], (D.rows "u").at 180 [j, k - 1],
         (D.rows "ejk").at 181 [j, k], (D.rows "u").at 181 [j, k], (D.rows "fjk").at 181 [j, k],
         (D.rows "ejk").at 183 [j, k], (D.rows "u").at 183 [j, k], (D.rows "u").at 184 [j, k]]) ++
      [(D.rows "u").at 187 [j, 1], (D.prof "z").at 189 [D.kmax - 1], (D.rows "tbar").at 190 [j + 1, D.kmax - 1],
       (D.rows "tbar").at 190 [j - 1, D.kmax - 1], (D.rows "u").at 191 [j, D.kmax], (D.rows "u").at 191 [j, D.kmax - 2]]) ++
    (loop 1 D.kmax fun l => [(D.rows "u").at 194 [D.jd, l], (D.rows "u").at 195 [1, l], (D.rows "ubar").at 195 [1, l],
      (D.rows "cref").at 195 [1, l], (D.rows "cbar").at 195 [1, l]])

/-- Lines 224-229: the wind. -/
def wind : List Acc :=
  (loop 2 (D.jd - 1) fun j => loop 1 D.kmax fun l => [(D.rows "u").at 226 [j, l]]) ++
  (loop 1 D.kmax fun l => [(D.rows "u").at 228 [1, l], (D.rows "ubar").at 228 [1, l], (D.rows "u").at 229 [D.jd, l],
    (D.rows "u").at 229 [D.jd - 1, l], (D.rows "u").at 229 [D.jd - 2, l]])

/-- Lines 233-258: the temperature. -/
def temperature : List Acc :=
  (loop 2 (D.kmax - 1) fun k =>
    [(D.rows "tref").at 236 [1, k], (D.rows "tref").at 237 [2, k]] ++
    (loop 2 (D.jd - 1) fun j => [(D.rows "u").at 241 [j, k + 1], (D.rows "u").at 241 [j, k - 1],
      (D.rows "tref").at 244 [j + 1, k], (D.rows "tref").at 244 [j - 1, k]]) ++
    [(D.prof "tg").at 246 [k]] ++
    (loop 1 D.jd fun j => [(D.prof "tg").at 250 [k], (D.rows "tref").at 250 [j, k]]) ++
    [(D.prof "tg").at 253 [k], (D.prof "tb").at 254 [k]] ++
    (loop 1 D.jd fun l => [(D.rows "tref").at 255 [l, k]])) ++
  (loop 1 D.jd fun l => [(D.rows "tref").at 257 [l, 1], (D.rows "tref").at 257 [l, 2], (D.rows "tref").at 258 [l, D.kmax],
    (D.rows "tref").at 258 [l, D.kmax - 1]]) ++
  [(D.prof "tb").at 257 [2], (D.prof "tb").at 257 [1], (D.prof "tb").at 258 [D.kmax - 1], (D.prof "tb").at 258 [D.kmax]]

/-- The whole routine. -/
def trace : List Acc := D.means ++ (D.area ++ (D.coefficients ++ (D.sweeps ++ (D.wind ++ D.temperature))))

end RefDims

/-! ## `compute_qref_and_fawa_first.f90` -/

/-- Arguments that matter for subscripts; `ind` and `indV` are `ind` on lines 75 and 121. -/
structure FawaDims where
  imax : ℤ
  jmax : ℤ
  kmax : ℤ
  nd : ℤ
  nnd : ℤ
  jb : ℤ
  jd : ℤ
  ind : ℤ → ℤ → ℤ → ℤ
  indV : ℤ → ℤ → ℤ → ℤ

namespace FawaDims

variable (D : FawaDims)

/-- Line 8. -/
def cube (s : String) : FArr := ⟨s, [D.imax, D.jmax, D.kmax]⟩
/-- Lines 21-22. -/
def level (s : String) : FArr := ⟨s, [D.imax, D.jmax]⟩
/-- Lines 11, 24-26. -/
def rows (s : String) : FArr := ⟨s, [D.nd, D.kmax]⟩
/-- Lines 23-24. -/
def part (s : String) : FArr := ⟨s, [D.nnd]⟩
/-- Lines 8, 23, 25. -/
def prof (s : String) : FArr := ⟨s, [D.kmax]⟩
/-- Line 25. -/
def lats (s : String) : FArr := ⟨s, [D.nd]⟩
/-- Line 12. -/
def tjk : FArr := ⟨"tjk", [D.jd - 2, D.kmax - 1]⟩
/-- Line 12. -/
def sjk : FArr := ⟨"sjk", [D.jd - 2, D.jd - 2, D.kmax - 1]⟩

/-- Lines 33-53. -/
def means : List Acc :=
  (loop 1 D.nd fun nn => [(D.lats "phi").at 34 [nn], (D.lats "alat").at 35 [nn]]) ++
  (loop 1 D.kmax fun k => [(D.prof "z").at 39 [k]]) ++
  (loop D.nd D.jmax fun j =>
    (loop 1 D.kmax fun l => [(D.rows "qbar").at 45 [j - (D.nd - 1), l], (D.rows "tbar").at 46 [j - (D.nd - 1), l],
      (D.rows "ubar").at 47 [j - (D.nd - 1), l]]) ++
    (loop 1 D.imax fun i => loop 1 D.kmax fun l =>
      [(D.rows "qbar").at 49 [j - (D.nd - 1), l], (D.cube "pv").at 49 [i, j, l],
       (D.rows "tbar").at 50 [j - (D.nd - 1), l], (D.cube "pt").at 50 [i, j, l],
       (D.rows "ubar").at 51 [j - (D.nd - 1), l], (D.cube "uu").at 51 [i, j, l]]))

/-- Lines 58-104: area analysis of QGPV at level `k`. -/
def areaQ (k : ℤ) : List Acc :=
  (loop 1 D.imax fun i => loop 1 D.jmax fun j => [(D.cube "pv").at 59 [i, j, k], (D.level "pv2").at 59 [i, j],
    (D.cube "vort").at 60 [i, j, k], (D.level "vort2").at 60 [i, j]]) ++
  (loop 1 D.nnd fun nn => [(D.part "qn").at 70 [nn]]) ++
  (loop 1 D.jmax fun j => loop 1 D.imax fun i =>
    [(D.level "pv2").at 75 [i, j], (D.part "an").at 77 [D.ind k i j], (D.part "cn").at 78 [D.ind k i j], (D.level "pv2").at 78 [i, j]]) ++
  [(D.part "aan").at 81 [1], (D.part "ccn").at 82 [1]] ++
  (loop 2 D.nnd fun nn => [(D.part "aan").at 84 [nn], (D.part "aan").at 84 [nn - 1], (D.part "an").at 84 [nn],
    (D.part "ccn").at 85 [nn], (D.part "ccn").at 85 [nn - 1], (D.part "cn").at 85 [nn]]) ++
  (loop 1 (D.nd - 1) fun j => loop 1 (D.nnd - 1) fun nn =>
    [(D.part "aan").at 89 [nn], (D.lats "alat").at 89 [j], (D.part "aan").at 89 [nn + 1],
     (D.rows "qref").at 91 [j, k], (D.part "qn").at 91 [nn], (D.part "qn").at 91 [nn + 1],
     (D.rows "cref").at 92 [j, k], (D.part "ccn").at 92 [nn], (D.part "ccn").at 92 [nn + 1]]) ++
  [(D.rows "qref").at 97 [D.nd, k], (D.rows "cbar").at 99 [D.nd, k]] ++
  (loop 1 (D.nd - 1) fun j => [(D.rows "cbar").at 102 [j, k], (D.rows "cbar").at 102 [j + 1, k],
    (D.rows "qbar").at 102 [j + 1, k], (D.rows "qbar").at 102 [j, k]])

/-- Lines 109-140: area analysis of vorticity at level `k`. -/
def areaV (k : ℤ) : List Acc :=
  (loop 1 D.nnd fun nn => [(D.part "qn").at 116 [nn]]) ++
  (loop 1 D.jmax fun j => loop 1 D.imax fun i =>
    [(D.level "vort2").at 121 [i, j], (D.part "an").at 123 [D.indV k i j], (D.part "cn").at 124 [D.indV k i j],
     (D.level "vort2").at 124 [i, j]]) ++
  [(D.part "aan").at 127 [1], (D.part "ccn").at 128 [1]] ++
  (loop 2 D.nnd fun nn => [(D.part "aan").at 130 [nn], (D.part "aan").at 130 [nn - 1], (D.part "an").at 130 [nn],
    (D.part "ccn").at 131 [nn], (D.part "ccn").at 131 [nn - 1], (D.part "cn").at 131 [nn]]) ++
  (loop 1 (D.nd - 1) fun j => loop 1 (D.nnd - 1) fun nn =>
    [(D.part "aan").at 135 [nn], (D.lats "alat").at 135 [j], (D.part "aan").at 135 [nn + 1],
     (D.rows "ckref").at 137 [j, k], (D.part "ccn").at 137 [nn], (D.part "ccn").at 137 [nn + 1]])

/-- Lines 146-175: normalisation and top boundary. -/
def rest : List Acc :=
  (loop 2 D.nd fun j => loop 1 D.kmax fun l => [(D.rows "qref").at 149 [j, l]]) ++
  (loop 2 (D.kmax - 1) fun k => [(D.rows "qref").at 153 [1, k], (D.rows "qref").at 153 [2, k], (D.rows "qref").at 153 [3, k]]) ++
  (loop (D.jb + 2) (D.nd - 1) fun jj =>
    [D.tjk.at 171 [jj - D.jb - 1, D.kmax - 1], (D.prof "z").at 171 [D.kmax - 1], (D.rows "tbar").at 172 [jj - D.jb + 1, D.kmax],
     (D.rows "tbar").at 172 [jj - D.jb - 1, D.kmax], D.sjk.at 174 [jj - D.jb - 1, jj - D.jb - 1, D.kmax - 1]])

/-- The whole routine. -/
def trace : List Acc := D.means ++ ((loop 2 (D.kmax - 1) fun k => D.areaQ k ++ D.areaV k) ++ D.rest)

end FawaDims

/-! ## `matrix_b4_inversion.f90`, `matrix_after_inversion.f90`, `upward_sweep.f90` -/

/-- Arguments of the three routines that matter for subscripts. -/
structure InvDims where
  kmax : ℤ
  nd : ℤ
  jb : ℤ
  jd : ℤ

namespace InvDims

variable (D : InvDims)

/-- `z`, `statn`, `tb`, `tg`. -/
def prof (s : String) : FArr := ⟨s, [D.kmax]⟩
/-- `qref`, `ckref`, `qref_over_cor`. -/
def rows (s : String) : FArr := ⟨s, [D.nd, D.kmax]⟩
/-- `u`, `tref`. -/
def inner (s : String) : FArr := ⟨s, [D.jd, D.kmax]⟩
/-- Square matrices. -/
def mat (s : String) : FArr := ⟨s, [D.jd - 2, D.jd - 2]⟩
/-- Vectors. -/
def vec (s : String) : FArr := ⟨s, [D.jd - 2]⟩
/-- `sjk`. -/
def sjk : FArr := ⟨"sjk", [D.jd - 2, D.jd - 2, D.kmax - 1]⟩
/-- `tjk`. -/
def tjk : FArr := ⟨"tjk", [D.jd - 2, D.kmax - 1]⟩
/-- `pjk`. -/
def pjk : FArr := ⟨"pjk", [D.jd - 2, D.kmax]⟩

/-- `matrix_b4_inversion`, lines 17-86. -/
def before (k : ℤ) : List Acc :=
  [(D.prof "z").at 17 [k + 1], (D.prof "z").at 17 [k], (D.prof "z").at 18 [k - 1], (D.prof "statn").at 19 [k + 1],
   (D.prof "statn").at 19 [k], (D.prof "statn").at 20 [k - 1]] ++
  (loop 1 (D.jd - 2) fun p => loop 1 (D.jd - 2) fun q => [(D.mat "sjj").at 24 [p, q], D.sjk.at 24 [p, q, k]]) ++
  (loop (D.jb + 2) (D.nd - 1) fun jj =>
    [(D.prof "z").at 39 [k], (D.rows "qref").at 49 [jj + 1, k], (D.rows "qref").at 49 [jj - 1, k],
     (D.inner "u").at 54 [D.jd, k], (D.inner "u").at 57 [1, k], (D.rows "ckref").at 57 [D.jb + 1, k],
     (D.vec "rj").at 59 [jj - D.jb - 1]] ++
    (when (jj - D.jb = 2) [(D.vec "rj").at 60 [jj - D.jb - 1], (D.inner "u").at 60 [1, k]]) ++
    (when (jj - D.jb = D.jd - 1) [(D.vec "rj").at 61 [jj - D.jb - 1], (D.inner "u").at 61 [D.jd, k]]) ++
    [(D.mat "cjj").at 64 [jj - D.jb - 1, jj - D.jb - 1], (D.mat "djj").at 65 [jj - D.jb - 1, jj - D.jb - 1],
     (D.mat "qjj").at 68 [jj - D.jb - 1, jj - D.jb - 1]] ++
    (when (1 ≤ jj - D.jb - 1 ∧ jj - D.jb - 1 < D.jd - 2) [(D.mat "qjj").at 70 [jj - D.jb - 1, jj - D.jb]]) ++
    (when (1 < jj - D.jb - 1 ∧ jj - D.jb - 1 ≤ D.jd - 2) [(D.mat "qjj").at 73 [jj - D.jb - 1, jj - D.jb - 2]])) ++
  (loop 1 (D.jd - 2) fun i => loop 1 (D.jd - 2) fun j =>
    [(D.mat "xjj").at 80 [i, j]] ++
    (loop 1 (D.jd - 2) fun kk => [(D.mat "xjj").at 82 [i, j], (D.mat "cjj").at 82 [i, kk], (D.mat "sjj").at 82 [kk, j]]) ++
    [(D.mat "qjj").at 84 [i, j], (D.mat "xjj").at 84 [i, j]])

/-- `matrix_after_inversion`, lines 10-37. -/
def after (k : ℤ) : List Acc :=
  (loop 1 (D.jd - 2) fun p => [(D.vec "tj").at 10 [p], D.tjk.at 10 [p, k]]) ++
  (loop 1 (D.jd - 2) fun i => loop 1 (D.jd - 2) fun j =>
    [(D.mat "xjj").at 13 [i, j]] ++
    (loop 1 (D.jd - 2) fun kk => [(D.mat "xjj").at 15 [i, j], (D.mat "qjj").at 15 [i, kk], (D.mat "djj").at 15 [kk, j]]) ++
    [D.sjk.at 17 [i, j, k - 1], (D.mat "xjj").at 17 [i, j]]) ++
  (loop 1 (D.jd - 2) fun i =>
    [(D.vec "yj").at 23 [i]] ++
    (loop 1 (D.jd - 2) fun kk => [(D.vec "yj").at 25 [i], (D.mat "cjj").at 25 [i, kk], (D.vec "tj").at 25 [kk]]) ++
    [(D.vec "yj").at 27 [i], (D.vec "rj").at 27 [i]]) ++
  (loop 1 (D.jd - 2) fun i =>
    [(D.vec "tj").at 32 [i]] ++
    (loop 1 (D.jd - 2) fun kk => [(D.vec "tj").at 34 [i], (D.mat "qjj").at 34 [i, kk], (D.vec "yj").at 34 [kk]]) ++
    [D.tjk.at 36 [i, k - 1], (D.vec "tj").at 36 [i]])

/-- `upward_sweep`, lines 19-56: the wind. -/
def sweepWind : List Acc :=
  (loop 1 (D.jd - 2) fun p => [D.pjk.at 19 [p, 1]]) ++
  (loop 1 (D.kmax - 1) fun k =>
    (loop 1 (D.jd - 2) fun p => [(D.vec "pj").at 21 [p], D.pjk.at 21 [p, k]]) ++
    (loop 1 (D.jd - 2) fun p => loop 1 (D.jd - 2) fun q => [(D.mat "sjj").at 22 [p, q], D.sjk.at 22 [p, q, k]]) ++
    (loop 1 (D.jd - 2) fun p => [(D.vec "tj").at 23 [p], D.tjk.at 23 [p, k]]) ++
    (loop 1 (D.jd - 2) fun i =>
      [(D.vec "yj").at 26 [i]] ++
      (loop 1 (D.jd - 2) fun kk => [(D.vec "yj").at 28 [i], (D.mat "sjj").at 28 [i, kk], (D.vec "pj").at 28 [kk]]) ++
      [D.pjk.at 30 [i, k + 1], (D.vec "yj").at 30 [i], (D.vec "tj").at 30 [i]])) ++
  (loop 1 D.kmax fun k => loop 2 (D.jd - 1) fun j => [(D.inner "u").at 39 [j, k], D.pjk.at 39 [j - 1, k]]) ++
  [(D.inner "u").at 44 [1, 1], (D.inner "u").at 45 [D.jd, 1], (D.inner "u").at 47 [1, D.kmax],
   (D.rows "ckref").at 47 [1 + D.jb, D.kmax], (D.inner "u").at 48 [D.jd, D.kmax]] ++
  (loop (D.jb + 1) (D.nd - 1) fun jj => loop 1 D.kmax fun l => [(D.inner "u").at 54 [jj - D.jb, l]]) ++
  (loop 1 D.kmax fun l => [(D.inner "u").at 56 [D.jd, l], (D.inner "u").at 56 [D.jd - 1, l], (D.inner "u").at 56 [D.jd - 2, l]])

/-- `upward_sweep`, lines 60-91: the temperature. -/
def sweepTemperature : List Acc :=
  (loop 2 (D.kmax - 1) fun k =>
    [(D.inner "tref").at 63 [1, k], (D.inner "tref").at 64 [2, k]] ++
    (loop 2 (D.jd - 1) fun j => [(D.inner "u").at 68 [j, k + 1], (D.inner "u").at 68 [j, k - 1],
      (D.inner "tref").at 71 [j + 1, k], (D.inner "tref").at 71 [j - 1, k]]) ++
    (loop 1 D.nd fun j => [(D.rows "qref").at 75 [j, k], (D.rows "qref_over_cor").at 75 [j, k]]) ++
    [(D.prof "tg").at 78 [k]] ++
    (loop (D.jb + 1) D.nd fun jj => [(D.prof "tg").at 83 [k], (D.inner "tref").at 83 [jj - D.jb, k]]) ++
    [(D.prof "tg").at 86 [k], (D.prof "tb").at 87 [k]] ++
    (loop 1 D.jd fun l => [(D.inner "tref").at 88 [l, k]])) ++
  (loop 1 D.jd fun l => [(D.inner "tref").at 90 [l, 1], (D.inner "tref").at 90 [l, 2], (D.inner "tref").at 91 [l, D.kmax],
    (D.inner "tref").at 91 [l, D.kmax - 1]]) ++
  [(D.prof "tb").at 90 [2], (D.prof "tb").at 90 [1], (D.prof "tb").at 91 [D.kmax - 1], (D.prof "tb").at 91 [D.kmax]]

/-- `upward_sweep`. -/
def sweep : List Acc := D.sweepWind ++ D.sweepTemperature

/-- The calls of `_compute_reference_states_nhn22_hemispheric_wrapper` after the first routine, oopinterface.py lines 1838-1894:
`for k in range(self.kmax - 1, 1, -1)`, then the upward sweep. -/
def calls : List Acc := (loop 2 (D.kmax - 1) fun k => D.before k ++ D.after k) ++ D.sweep

end InvDims

/-! ## `compute_qgpv.f90`, `compute_qgpv_direct_inv.f90` -/

/-- Arguments that matter for subscripts; `jd` is used by `compute_qgpv_direct_inv` only. -/
structure PvDims where
  nlon : ℤ
  nlat : ℤ
  kmax : ℤ
  jd : ℤ

namespace PvDims

variable (D : PvDims)

/-- Fields. -/
def cube (s : String) : FArr := ⟨s, [D.nlon, D.nlat, D.kmax]⟩
/-- Zonal means. -/
def rows (s : String) : FArr := ⟨s, [D.nlat, D.kmax]⟩
/-- Profiles. -/
def prof (s : String) : FArr := ⟨s, [D.kmax]⟩
/-- `st`, `zmst` of `compute_qgpv`, line 16. -/
def st : FArr := ⟨"st", [D.nlon, D.nlat]⟩
/-- `zmst`. -/
def zmst : FArr := ⟨"zmst", [D.nlat]⟩

/-- `compute_qgpv`, lines 59-105, and `compute_qgpv_direct_inv`, lines 28-71: vorticity and its zonal mean. The second routine calls the
wind `uq`, `vq`; lines are those of the first. -/
def vorticity : List Acc :=
  (loop 1 D.kmax fun kk =>
    (loop 2 (D.nlat - 1) fun j =>
      (loop 2 (D.nlon - 1) fun i => [(D.cube "vt").at 70 [i + 1, j, kk], (D.cube "vt").at 70 [i - 1, j, kk],
        (D.cube "ut").at 71 [i, j + 1, kk], (D.cube "ut").at 71 [i, j - 1, kk], (D.cube "avort").at 72 [i, j, kk]]) ++
      [(D.cube "vt").at 76 [2, j, kk], (D.cube "vt").at 76 [D.nlon, j, kk], (D.cube "ut").at 77 [1, j + 1, kk],
       (D.cube "ut").at 77 [1, j - 1, kk], (D.cube "avort").at 78 [1, j, kk], (D.cube "vt").at 80 [1, j, kk],
       (D.cube "vt").at 80 [D.nlon - 1, j, kk], (D.cube "ut").at 82 [D.nlon, j + 1, kk], (D.cube "ut").at 82 [D.nlon, j - 1, kk],
       (D.cube "avort").at 83 [D.nlon, j, kk]]) ++
    (loop 1 D.nlon fun i => [(D.cube "avort").at 89 [i, 2, kk], (D.cube "avort").at 90 [i, D.nlat - 1, kk],
      (D.cube "avort").at 92 [i, 1, kk], (D.cube "avort").at 93 [i, D.nlat, kk]])) ++
  (loop 1 D.kmax fun kk => loop 1 D.nlat fun j =>
    [(D.rows "zmav").at 100 [j, kk]] ++
    (loop 1 D.nlon fun i => [(D.rows "zmav").at 102 [j, kk], (D.cube "avort").at 102 [i, j, kk]]))

/-- Zonal mean of QGPV: lines 128-135 of `compute_qgpv`, 104-111 of `compute_qgpv_direct_inv`. -/
def meanPv : List Acc :=
  loop 1 D.kmax fun kk => loop 1 D.nlat fun j =>
    [(D.rows "zmpv").at 130 [j, kk]] ++
    (loop 1 D.nlon fun i => [(D.rows "zmpv").at 132 [j, kk], (D.cube "pv").at 132 [i, j, kk]])

/-- `compute_qgpv`. -/
def qgpv18 : List Acc :=
  (loop 1 D.nlat fun j => loop 1 D.kmax fun k => loop 1 D.nlon fun i =>
    [(D.rows "tzd").at 39 [j, k], (D.cube "theta").at 39 [i, j, k], (D.rows "uzd").at 40 [j, k], (D.cube "ut").at 40 [i, j, k],
     (D.rows "vzd").at 41 [j, k], (D.cube "vt").at 41 [i, j, k], (D.rows "tz").at 42 [j, k], (D.rows "uz").at 43 [j, k],
     (D.rows "vz").at 44 [j, k]]) ++
  (loop 1 D.nlat fun j => [D.zmst.at 51 [j]] ++ (loop 1 D.nlon fun i => [D.zmst.at 53 [j], D.st.at 53 [i, j]])) ++
  D.vorticity ++
  (loop 2 (D.kmax - 1) fun kk => loop 1 D.nlat fun j => loop 1 D.nlon fun i =>
    [(D.prof "height").at 115 [kk + 1], (D.cube "theta").at 115 [i, j, kk + 1], (D.prof "t0").at 115 [kk + 1],
     (D.prof "stat").at 115 [kk + 1], (D.prof "height").at 116 [kk - 1], (D.cube "theta").at 116 [i, j, kk - 1],
     (D.prof "t0").at 116 [kk - 1], (D.prof "stat").at 116 [kk - 1], (D.rows "zmav").at 119 [j, kk],
     (D.cube "pv").at 121 [i, j, kk], (D.cube "avort").at 121 [i, j, kk], (D.prof "height").at 121 [kk]]) ++
  D.meanPv

/-- `compute_qgpv_direct_inv`; lines 75-100 are its own. -/
def qgpv22 : List Acc :=
  D.vorticity ++
  (loop 2 (D.kmax - 1) fun kk => loop 1 D.nlat fun j =>
    (if j ≤ D.jd then
      [(D.prof "stats").at 80 [kk + 1], (D.prof "stats").at 81 [kk - 1], (D.prof "ts0").at 82 [kk + 1], (D.prof "ts0").at 83 [kk - 1]]
    else
      [(D.prof "statn").at 85 [kk + 1], (D.prof "statn").at 86 [kk - 1], (D.prof "tn0").at 87 [kk + 1], (D.prof "tn0").at 88 [kk - 1]]) ++
    (loop 1 D.nlon fun i =>
      [(D.cube "tq").at 92 [i, j, kk + 1], (D.cube "tq").at 93 [i, j, kk - 1], (D.prof "height").at 94 [kk + 1],
       (D.prof "height").at 95 [kk - 1], (D.cube "pv").at 97 [i, j, kk], (D.cube "avort").at 97 [i, j, kk],
       (D.prof "height").at 97 [kk]])) ++
  D.meanPv

end PvDims

/-! ## `compute_lwa_only_nhn22.f90`, `compute_flux_dirinv.f90` -/

/-- Arguments that matter for subscripts; `jd` is used by `compute_flux_dirinv_nshem` only. -/
structure FluxDims where
  imax : ℤ
  jmax : ℤ
  kmax : ℤ
  nd : ℤ
  jb : ℤ
  jd : ℤ
  nhem : Bool

namespace FluxDims

variable (D : FluxDims)

/-- Input fields. -/
def cube (s : String) : FArr := ⟨s, [D.imax, D.jmax, D.kmax]⟩
/-- Hemispheric results. -/
def hem (s : String) : FArr := ⟨s, [D.imax, D.nd, D.kmax]⟩
/-- `qe`, `ue`, `ncforce2d`, `astarbaro`, `ubaro`, `ep4`. -/
def plane (s : String) : FArr := ⟨s, [D.imax, D.nd]⟩
/-- `qref`. -/
def qref : FArr := ⟨"qref", [D.nd, D.kmax]⟩
/-- `uref`, `tref`. -/
def inner (s : String) : FArr := ⟨s, [D.jd, D.kmax]⟩
/-- Profiles. -/
def prof (s : String) : FArr := ⟨s, [D.kmax]⟩

/-- `jstart`: lines 39, 42 and 63, 66. -/
def jstart : ℤ := if D.nhem then D.jb + 1 else 2
/-- `jend`: lines 40, 43 and 64, 67. -/
def jend : ℤ := if D.nhem then D.nd - 1 else D.nd - D.jb
/-- Row of the input fields for hemispheric row `j`. -/
def row (j : ℤ) : ℤ := if D.nhem then j + D.nd - 1 else j
/-- Row of `uref` and `tref` for hemispheric row `j`. -/
def ref (j : ℤ) : ℤ := if D.nhem then j - D.jb else j

/-- `compute_lwa_only_nhn22`. The two branches of lines 60-66, 69-73, 76-80 and 96-104 differ in the row of the fields and in which of
`astar1` and `astar2` they use; both are listed. -/
def lwaOnly : List Acc :=
  (loop 1 D.kmax fun k => [(D.prof "z").at 27 [k]]) ++
  (loop 2 (D.kmax - 1) fun k =>
    (loop 1 D.imax fun i => loop D.jstart D.jend fun j =>
      [(D.hem "astar1").at 50 [i, j, k], (D.hem "astar2").at 51 [i, j, k]] ++
      (loop 1 D.nd fun jj => [(D.plane "qe").at 62 [i, jj], (D.cube "pv").at 62 [i, D.row jj, k], D.qref.at 62 [j, k],
        (D.hem "astar1").at 72 [i, j, k], (D.hem "astar2").at 70 [i, j, k]])) ++
    (loop 1 D.imax fun i => loop 1 D.nd fun j =>
      [(D.plane "astarbaro").at 93 [i, j], (D.hem "astar1").at 93 [i, j, k], (D.hem "astar2").at 94 [i, j, k]]) ++
    (loop D.jstart D.jend fun j => loop 1 D.imax fun i => [(D.plane "ubaro").at 98 [i, j], (D.cube "uu").at 98 [i, D.row j, k]]))

/-- `compute_flux_dirinv_nshem`, lines 72-171 for one `i`, `j`, `k`, without the momentum flux. -/
def fluxAt (k i j : ℤ) : List Acc :=
  [(D.hem "astar1").at 74 [i, j, k], (D.hem "astar2").at 75 [i, j, k], (D.hem "ncforce3d").at 76 [i, j, k], (D.hem "ua2").at 77 [i, j, k]] ++
  (loop 1 D.nd fun jj =>
    [(D.plane "qe").at 88 [i, jj], (D.cube "pv").at 88 [i, D.row jj, k], D.qref.at 88 [j, k], (D.plane "ncforce2d").at 89 [i, jj],
     (D.cube "ncforce").at 89 [i, D.row jj, k], (D.plane "ue").at 90 [i, jj], (D.cube "uu").at 90 [i, D.row jj, k],
     (D.inner "uref").at 90 [D.ref j, k]]) ++
  [(D.hem "ua1").at 120 [i, j, k], (D.inner "uref").at 120 [D.ref j, k], (D.hem "ep1").at 121 [i, j, k],
   (D.cube "uu").at 121 [i, D.row j, k], (D.cube "vv").at 122 [i, D.row j, k], (D.cube "pt").at 123 [i, D.row j, k],
   (D.inner "tref").at 123 [D.ref j, k], (D.prof "tg").at 132 [k + 1], (D.prof "tg").at 132 [k - 1]] ++
  (when (k = 2)
    [(D.cube "vv").at 163 [i, D.row j, 2], (D.cube "pt").at 163 [i, D.row j, 2], (D.inner "tref").at 163 [D.ref j, 2],
     (D.prof "tg").at 163 [3], (D.prof "tg").at 163 [1], (D.cube "vv").at 164 [i, D.row j, 1], (D.cube "pt").at 164 [i, D.row j, 1],
     (D.inner "tref").at 164 [D.ref j, 1], (D.prof "tg").at 169 [2], (D.plane "ep4").at 170 [i, j]])

/-- Lines 149-157: `ep2`, `ep3` at `j`. -/
def momentumAt (k i j : ℤ) : List Acc :=
  [(D.hem "ep2").at 151 [i, j, k], (D.cube "uu").at 151 [i, D.row j + 1, k], (D.inner "uref").at 151 [D.ref j + 1, k],
   (D.cube "vv").at 151 [i, D.row j + 1, k], (D.hem "ep3").at 152 [i, j, k], (D.cube "uu").at 152 [i, D.row j - 1, k],
   (D.inner "uref").at 152 [D.ref j - 1, k], (D.cube "vv").at 152 [i, D.row j - 1, k]]

/-- Lines 173-178: `ep2`, `ep3` on the boundary row. -/
def tail (k i : ℤ) : List Acc :=
  [(D.hem "ep2").at 177 [i, D.jb, k], (D.cube "uu").at 177 [i, D.nd + D.jb + 1, k], (D.inner "uref").at 177 [2, k],
   (D.cube "vv").at 177 [i, D.nd + D.jb + 1, k], (D.hem "ep3").at 178 [i, D.jb, k], (D.cube "uu").at 178 [i, D.nd + D.jb, k],
   (D.inner "uref").at 178 [1, k], (D.cube "vv").at 178 [i, D.nd + D.jb, k]]

/-- `compute_flux_dirinv_nshem`. -/
def flux : List Acc :=
  (loop 1 D.kmax fun k => [(D.prof "z").at 38 [k]]) ++
  (loop 2 (D.kmax - 1) fun k => loop 1 D.imax fun i =>
    (loop D.jstart D.jend fun j => D.fluxAt k i j ++ D.momentumAt k i j) ++ D.tail k i)

end FluxDims

end Bounds

end Falwa
