import Verif.Model.Flux

/-!
# Model of the layerwise flux terms

Source: `/repo/src/falwa/oopinterface.py`, `_compute_layerwise_lwa_fluxes_wrapper` (lines 1063-1156), `_compute_stretch_term`
(lines 1021-1061), `_compute_flux_vector_phi_baro` (lines 964-982). The calls of the Fortran routine have the same arguments as
those of `compute_lwa_and_barotropic_fluxes` (lines 1094-1112 and 1127-1145 against 430-448, 748-758 and 779-789), so `northIn` and
`southIn` serve for both.

Simplification: when no forcing is given, line 1078 makes a zero array with `nlat` rows where lines 898-904 use the analysis grid;
the two differ on even grids (see C33); here the forcing is on the analysis grid.
-/

noncomputable section

namespace Falwa

open Real Finset

namespace QGAnalysis

variable (S : QGAnalysis)

/-- A layerwise term, lines 1085-1126. -/
def layer (x : FluxOut → ℤ → ℤ → ℤ → ℝ) (i g k : ℤ) : ℝ :=
  S.store (fun j => x S.northIn.fluxDirinv i j k) (fun j => x S.southIn.fluxDirinv i j k) g

/-- `lwa` after `compute_layerwise_lwa_fluxes`, lines 1151-1152. -/
def layerLwa (i g k : ℤ) : ℝ := S.layer FluxOut.astar1 i g k + S.layer FluxOut.astar2 i g k

/-- Layerwise `ep2`, lines 1091, 1124-1125, 1146. -/
def layerEp2 (i g k : ℤ) : ℝ :=
  S.store (fun j => S.northIn.fluxDirinv.ep2 i j k) (fun j => -S.southIn.fluxDirinv.ep3 i j k) g

/-- Layerwise `ep3`, lines 1092, 1124-1125, 1147. -/
def layerEp3 (i g k : ℤ) : ℝ :=
  S.store (fun j => S.northIn.fluxDirinv.ep3 i j k) (fun j => -S.southIn.fluxDirinv.ep2 i j k) g

/-- Layerwise `ncforce`, lines 1087, 1120, 1148. -/
def layerNcforce (i g k : ℤ) : ℝ :=
  S.store (fun j => S.northIn.fluxDirinv.ncforce3d i j k) (fun j => -S.southIn.fluxDirinv.ncforce3d i j k) g

/-- `ptref_full`, lines 1033-1040, at row `r` of the analysis grid: zero where the storage has no row. -/
def ptrefFull (r k : ℤ) : ℝ := if S.nlat - S.rows < r then S.ptref (r - (S.nlat - S.rows)) k else 0

/-- `v_e_theta_e_clat` in Python order, lines 1042-1044 and 1052 (indices from 0). -/
def vThetaClat (k j c : ℕ) : ℝ :=
  S.v ((c : ℤ) + 1) ((j : ℤ) + 1) ((k : ℤ) + 1) *
    (S.theta ((c : ℤ) + 1) ((j : ℤ) + 1) ((k : ℤ) + 1) - S.ptrefFull ((j : ℤ) + 1) ((k : ℤ) + 1)) *
      |cos (S.lat ((j : ℤ) + 1))|

/-- `stretch_term`, lines 1045-1061. The result for the whole globe is cut to the rows of the storage. -/
def stretchTerm (statN statS : ℤ → ℝ) (i g k : ℤ) : ℝ :=
  -zDer S.nlat.toNat S.kmax.toNat S.nd.toNat S.dz (fun k => statN ((k : ℤ) + 1)) (fun k => statS ((k : ℤ) + 1))
    (fun k => exp (-S.height ((k : ℤ) + 1) / S.h)) S.vThetaClat
    (fun k j => 2 * S.om * sin (S.lat ((j : ℤ) + 1)) * exp (S.height ((k : ℤ) + 1) / S.h))
    (k - 1).toNat (S.outRow g - 1).toNat (i - 1).toNat

/-- `flux_vector_phi_baro`, lines 974-982. -/
def fluxVectorPhi (i g : ℤ) : ℝ :=
  S.verticalAverage (fun k => -((S.u i (S.outRow g) k - S.uref g k) * S.v i (S.outRow g) k * |cos (S.lat (S.outRow g))|))

end QGAnalysis

end Falwa
