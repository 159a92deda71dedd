import Verif.Lemmas.Rotate
import Verif.Lemmas.QgFlux
import Verif.Lemmas.Periodic

/-! Rotation of the input of the whole analysis. -/

set_option linter.unusedSectionVars false
set_option linter.unusedSimpArgs false

noncomputable section

namespace Falwa

open Real Finset

/-! ### QGPV -/

namespace QgpvIn

variable (I : QgpvIn) (s : ℤ)

/-- The fields, rotated. -/
def rotate : QgpvIn :=
  { I with u := rot3 I.nlon s I.u, v := rot3 I.nlon s I.v, theta := rot3 I.nlon s I.theta }

/-- The difference is the one between the eastern and the western neighbour, also at the seam. -/
theorem dv_eq (hn : 2 ≤ I.nlon) {i : ℤ} (h1 : 1 ≤ i) (h2 : i ≤ I.nlon) (j k : ℤ) :
    I.dv i j k = I.v (rot I.nlon 1 i) j k - I.v (rot I.nlon (-1) i) j k := by
  have e : ∀ {x}, 1 ≤ x → x + 1 ≤ I.nlon → rot I.nlon 1 x = x + 1 := fun {x} a b => by
    unfold rot; rw [Int.emod_eq_of_lt (by omega) (by omega)]; ring
  have w : ∀ {x}, 2 ≤ x → x ≤ I.nlon → rot I.nlon (-1) x = x - 1 := fun {x} a b => by
    unfold rot; rw [Int.emod_eq_of_lt (by omega) (by omega)]; ring
  have e' : rot I.nlon 1 I.nlon = 1 := by
    unfold rot; rw [show I.nlon - 1 + 1 = I.nlon by ring, Int.emod_self]; rfl
  have w' : rot I.nlon (-1) 1 = I.nlon := by
    have := rot_neg (n := I.nlon) (s := 1) (i := I.nlon) (by omega) le_rfl
    rwa [e'] at this
  unfold dv
  by_cases hi : i = I.nlon
  · subst hi; rw [if_pos rfl, e', w hn le_rfl]
  rw [if_neg hi]
  by_cases h : i = 1
  · subst h; rw [if_pos rfl, e le_rfl (by omega), w']; norm_num
  · rw [if_neg h, e h1 (by omega), w (by omega) h2]

theorem rotate_dv (hn : 2 ≤ I.nlon) (i j k : ℤ) : (I.rotate s).dv i j k = I.dv (rot I.nlon s i) j k := by
  obtain ⟨h1, h2⟩ := rot_mem (show 1 ≤ I.nlon by omega) s i
  rw [I.dv_eq hn h1 h2, rot_rot, rot_rot]
  have p : ∀ t x, rot I.nlon t (x + 1) = rot I.nlon (1 + t) x := fun t x => by
    unfold rot; congr 2; ring
  have m : ∀ t x, rot I.nlon t (x - 1) = rot I.nlon (-1 + t) x := fun t x => by
    unfold rot; congr 2; ring
  unfold dv
  show (if i = I.nlon then I.v (rot I.nlon s 1) j k - I.v (rot I.nlon s (I.nlon - 1)) j k
    else if i = 1 then I.v (rot I.nlon s 2) j k - I.v (rot I.nlon s I.nlon) j k
    else I.v (rot I.nlon s (i + 1)) j k - I.v (rot I.nlon s (i - 1)) j k) = _
  have c1 : rot I.nlon s 1 = rot I.nlon (1 + s) I.nlon := by
    unfold rot
    rw [show I.nlon - 1 + (1 + s) = (1 - 1 + s) + I.nlon * 1 by ring, Int.add_mul_emod_self_left]
  have c2 : rot I.nlon s I.nlon = rot I.nlon (-1 + s) 1 := by
    unfold rot
    rw [show I.nlon - 1 + s = (1 - 1 + (-1 + s)) + I.nlon * 1 by ring, Int.add_mul_emod_self_left]
  split_ifs with a b
  · subst a; rw [c1, m]
  · subst b; rw [c2, show (2 : ℤ) = 1 + 1 by norm_num, p]
  · rw [p, m]

theorem rotate_inner (hn : 2 ≤ I.nlon) : (I.rotate s).inner = rot3 I.nlon s I.inner := by
  funext i j k
  unfold inner
  rw [I.rotate_dv s hn]; rfl

theorem rotate_zmean (X : ℤ → ℤ → ℤ → ℝ) : (I.rotate s).zmean (rot3 I.nlon s X) = I.zmean X := by
  funext j k
  exact dosum_rot s (fun i => X i j k / (I.nlon : ℝ))

theorem rotate_avort (hn : 2 ≤ I.nlon) : (I.rotate s).avort = rot3 I.nlon s I.avort := by
  funext i j k
  unfold avort
  rw [I.rotate_inner s hn, I.rotate_zmean]; rfl

theorem rotate_pv18 (hn : 2 ≤ I.nlon) (t0 stat : ℤ → ℝ) :
    (I.rotate s).pv18 t0 stat = rot3 I.nlon s (I.pv18 t0 stat) := by
  funext i j k
  unfold pv18
  rw [I.rotate_avort s hn, I.rotate_zmean]; rfl

theorem rotate_pv22 (hn : 2 ≤ I.nlon) (jd : ℤ) (ts0 tn0 stats statn : ℤ → ℝ) :
    (I.rotate s).pv22 jd ts0 tn0 stats statn = rot3 I.nlon s (I.pv22 jd ts0 tn0 stats statn) := by
  funext i j k
  unfold pv22
  rw [I.rotate_avort s hn]; rfl

end QgpvIn

/-! ### Fluxes of both hemispheres -/

namespace QGAnalysis

variable (S : QGAnalysis) (s : ℤ)

/-- The fields, rotated; the reference states as they are. -/
def rotate : QGAnalysis :=
  { S with
    qgpv := rot3 S.nlon s S.qgpv
    u := rot3 S.nlon s S.u
    v := rot3 S.nlon s S.v
    theta := rot3 S.nlon s S.theta
    ncforce := rot3 S.nlon s S.ncforce }

theorem rotate_northIn : (S.rotate s).northIn = S.northIn.rotate s := rfl
theorem rotate_southIn : (S.rotate s).southIn = S.southIn.rotate s := rfl
theorem rotate_northLwaIn : (S.rotate s).northLwaIn = S.northLwaIn.rotate s := rfl
theorem rotate_southLwaIn : (S.rotate s).southLwaIn = S.southLwaIn.rotate s := rfl

variable (hjb : 0 ≤ S.jb) {i : ℤ} (hi : 1 ≤ i ∧ i ≤ S.nlon) (g : ℤ)
include hjb hi

theorem rotate_lwa (k : ℤ) : (S.rotate s).lwa i g k = S.lwa (rot S.nlon s i) g k := by
  unfold lwa
  rw [rotate_northIn, rotate_southIn]
  have e : ∀ j, (S.northIn.rotate s).fluxDirinv.astar1 i j k = S.northIn.fluxDirinv.astar1 (rot S.nlon s i) j k :=
    fun j => S.northIn.rotate_astar1 s hjb hi j k
  have e' : ∀ j, (S.northIn.rotate s).fluxDirinv.astar2 i j k = S.northIn.fluxDirinv.astar2 (rot S.nlon s i) j k :=
    fun j => S.northIn.rotate_astar2 s hjb hi j k
  have f : ∀ j, (S.southIn.rotate s).fluxDirinv.astar1 i j k = S.southIn.fluxDirinv.astar1 (rot S.nlon s i) j k :=
    fun j => S.southIn.rotate_astar1 s hjb hi j k
  have f' : ∀ j, (S.southIn.rotate s).fluxDirinv.astar2 i j k = S.southIn.fluxDirinv.astar2 (rot S.nlon s i) j k :=
    fun j => S.southIn.rotate_astar2 s hjb hi j k
  simp only [e, e', f, f']; rfl

theorem rotate_baro (x : FluxOut → ℤ → ℤ → ℤ → ℝ)
    (hx : ∀ I : FluxIn, I.jb = S.jb → I.imax = S.nlon →
      ∀ j k, x (I.rotate s).fluxDirinv i j k = x I.fluxDirinv (rot S.nlon s i) j k) :
    (S.rotate s).baro x i g = S.baro x (rot S.nlon s i) g := by
  unfold baro
  rw [rotate_northIn, rotate_southIn]
  simp only [hx S.northIn rfl rfl, hx S.southIn rfl rfl]; rfl

theorem rotate_lwaBaro : (S.rotate s).lwaBaro i g = S.lwaBaro (rot S.nlon s i) g := by
  unfold lwaBaro
  rw [S.rotate_baro s hjb hi g _ fun I h1 h2 j k => by rw [← h2]; exact I.rotate_astar1 s (h1 ▸ hjb) (h2 ▸ hi) j k,
    S.rotate_baro s hjb hi g _ fun I h1 h2 j k => by rw [← h2]; exact I.rotate_astar2 s (h1 ▸ hjb) (h2 ▸ hi) j k]

theorem rotate_uBaro : (S.rotate s).uBaro i g = S.uBaro (rot S.nlon s i) g := rfl

theorem rotate_advFluxF1 : (S.rotate s).advFluxF1 i g = S.advFluxF1 (rot S.nlon s i) g :=
  S.rotate_baro s hjb hi g _ fun I h1 h2 j k => by rw [← h2]; exact I.rotate_ua1 s (h1 ▸ hjb) (h2 ▸ hi) j k

theorem rotate_advFluxF2 : (S.rotate s).advFluxF2 i g = S.advFluxF2 (rot S.nlon s i) g :=
  S.rotate_baro s hjb hi g _ fun I h1 h2 j k => by rw [← h2]; exact I.rotate_ua2 s (h1 ▸ hjb) (h2 ▸ hi) j k

theorem rotate_advFluxF3 : (S.rotate s).advFluxF3 i g = S.advFluxF3 (rot S.nlon s i) g :=
  S.rotate_baro s hjb hi g _ fun I h1 h2 j k => by rw [← h2]; exact I.rotate_ep1 s (h1 ▸ hjb) (h2 ▸ hi) j k

theorem rotate_heatFlux : (S.rotate s).heatFlux i g = S.heatFlux (rot S.nlon s i) g := by
  unfold heatFlux
  rw [rotate_northIn, rotate_southIn]
  have e : ∀ j, (S.northIn.rotate s).fluxDirinv.ep4 i j = S.northIn.fluxDirinv.ep4 (rot S.nlon s i) j :=
    fun j => S.northIn.rotate_ep4 s hjb hi j
  have f : ∀ j, (S.southIn.rotate s).fluxDirinv.ep4 i j = S.southIn.fluxDirinv.ep4 (rot S.nlon s i) j :=
    fun j => S.southIn.rotate_ep4 s hjb hi j
  simp only [e, f]; rfl

theorem rotate_ncforceBaro : (S.rotate s).ncforceBaro i g = S.ncforceBaro (rot S.nlon s i) g := by
  unfold ncforceBaro
  rw [rotate_northIn, rotate_southIn]
  have e : ∀ j k, (S.northIn.rotate s).fluxDirinv.ncforce3d i j k = S.northIn.fluxDirinv.ncforce3d (rot S.nlon s i) j k :=
    fun j k => S.northIn.rotate_ncforce3d s hjb hi j k
  have f : ∀ j k, (S.southIn.rotate s).fluxDirinv.ncforce3d i j k = S.southIn.fluxDirinv.ncforce3d (rot S.nlon s i) j k :=
    fun j k => S.southIn.rotate_ncforce3d s hjb hi j k
  simp only [e, f]; rfl

theorem rotate_zonalFluxSum : (S.rotate s).zonalFluxSum i g = S.zonalFluxSum (rot S.nlon s i) g := by
  unfold zonalFluxSum
  have h1 := S.rotate_advFluxF1 s hjb hi g
  have h2 := S.rotate_advFluxF2 s hjb hi g
  have h3 := S.rotate_advFluxF3 s hjb hi g
  unfold advFluxF1 at h1
  unfold advFluxF2 at h2
  unfold advFluxF3 at h3
  rw [h1, h2, h3]

theorem rotate_lwaOnlyResults :
    (∀ k, (S.rotate s).lwaOfLwaOnly i g k = S.lwaOfLwaOnly (rot S.nlon s i) g k) ∧
    (S.rotate s).lwaBaroOfLwaOnly i g = S.lwaBaroOfLwaOnly (rot S.nlon s i) g ∧
    (S.rotate s).uBaroOfLwaOnly i g = S.uBaroOfLwaOnly (rot S.nlon s i) g := by
  have a : ∀ j k, (S.northLwaIn.rotate s).lwaOnly.astar1 i j k = S.northLwaIn.lwaOnly.astar1 (rot S.nlon s i) j k :=
    fun j => (S.northLwaIn.rotate_lwaOnly s hjb hi j).1
  have b : ∀ j k, (S.northLwaIn.rotate s).lwaOnly.astar2 i j k = S.northLwaIn.lwaOnly.astar2 (rot S.nlon s i) j k :=
    fun j => (S.northLwaIn.rotate_lwaOnly s hjb hi j).2.1
  have c : ∀ j, (S.northLwaIn.rotate s).lwaOnly.astarbaro i j = S.northLwaIn.lwaOnly.astarbaro (rot S.nlon s i) j :=
    fun j => (S.northLwaIn.rotate_lwaOnly s hjb hi j).2.2.1
  have d : ∀ j, (S.northLwaIn.rotate s).lwaOnly.ubaro i j = S.northLwaIn.lwaOnly.ubaro (rot S.nlon s i) j :=
    fun j => (S.northLwaIn.rotate_lwaOnly s hjb hi j).2.2.2
  have a' : ∀ j k, (S.southLwaIn.rotate s).lwaOnly.astar1 i j k = S.southLwaIn.lwaOnly.astar1 (rot S.nlon s i) j k :=
    fun j => (S.southLwaIn.rotate_lwaOnly s hjb hi j).1
  have b' : ∀ j k, (S.southLwaIn.rotate s).lwaOnly.astar2 i j k = S.southLwaIn.lwaOnly.astar2 (rot S.nlon s i) j k :=
    fun j => (S.southLwaIn.rotate_lwaOnly s hjb hi j).2.1
  have c' : ∀ j, (S.southLwaIn.rotate s).lwaOnly.astarbaro i j = S.southLwaIn.lwaOnly.astarbaro (rot S.nlon s i) j :=
    fun j => (S.southLwaIn.rotate_lwaOnly s hjb hi j).2.2.1
  have d' : ∀ j, (S.southLwaIn.rotate s).lwaOnly.ubaro i j = S.southLwaIn.lwaOnly.ubaro (rot S.nlon s i) j :=
    fun j => (S.southLwaIn.rotate_lwaOnly s hjb hi j).2.2.2
  refine ⟨fun k => ?_, ?_, ?_⟩
  · unfold lwaOfLwaOnly; rw [rotate_northLwaIn, rotate_southLwaIn]; simp only [a, b, a', b']; rfl
  · unfold lwaBaroOfLwaOnly; rw [rotate_northLwaIn, rotate_southLwaIn]; simp only [c, c']; rfl
  · unfold uBaroOfLwaOnly; rw [rotate_northLwaIn, rotate_southLwaIn]; simp only [d, d']; rfl

variable (hnd : S.jb + 1 ≤ S.nd)
include hnd

theorem rotate_ep23baro :
    (S.rotate s).ep2baro i g = S.ep2baro (rot S.nlon s i) g ∧ (S.rotate s).ep3baro i g = S.ep3baro (rot S.nlon s i) g := by
  unfold ep2baro ep3baro
  rw [rotate_northIn, rotate_southIn]
  have e : ∀ j k, (S.northIn.rotate s).fluxDirinv.ep2 i j k = S.northIn.fluxDirinv.ep2 (rot S.nlon s i) j k :=
    fun j k => (S.northIn.rotate_ep23 s hjb hi j k hnd).1
  have f : ∀ j k, (S.southIn.rotate s).fluxDirinv.ep2 i j k = S.southIn.fluxDirinv.ep2 (rot S.nlon s i) j k :=
    fun j k => (S.southIn.rotate_ep23 s hjb hi j k hnd).1
  have e' : ∀ j k, (S.northIn.rotate s).fluxDirinv.ep3 i j k = S.northIn.fluxDirinv.ep3 (rot S.nlon s i) j k :=
    fun j k => (S.northIn.rotate_ep23 s hjb hi j k hnd).2
  have f' : ∀ j k, (S.southIn.rotate s).fluxDirinv.ep3 i j k = S.southIn.fluxDirinv.ep3 (rot S.nlon s i) j k :=
    fun j k => (S.southIn.rotate_ep23 s hjb hi j k hnd).2
  simp only [e, f, e', f']
  exact ⟨rfl, rfl⟩

theorem rotate_divEddyMomentumFlux : (S.rotate s).divEddyMomentumFlux i g = S.divEddyMomentumFlux (rot S.nlon s i) g := by
  unfold divEddyMomentumFlux
  rw [(S.rotate_ep23baro s hjb hi g hnd).1, (S.rotate_ep23baro s hjb hi g hnd).2]; rfl

end QGAnalysis

end Falwa
