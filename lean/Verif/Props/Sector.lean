import Verif.Lemmas.SectorStart
/-
C103: the block DMRG stays in its sector of conserved quantities.
-/
namespace QuantiT.BN
open Spec BT MP Finset
variable {G 𝕜 : Type} [RCLike 𝕜]

/-- What is asked of the tensors of a block Hamiltonian: a chain of tensors of four dimensions none of which is empty, whose columns are the
duals of their rows, with ends of one element, and that commutes with the conserved quantities. -/
structure ConservingOp [AddCommGroup G] (Ws : List (BT G 𝕜)) : Prop where
  chained : Chained 4 Ws
  dual : ∀ W ∈ Ws, W.shape.getD 1 [] = flipped (W.shape.getD 3 [])
  positive : AllPositive Ws
  closed : Closed (Ws.map denseOf)
  neutral : Neutral Ws
  edges : chargeAt (leftDim Ws) 0 = 0 ∧ chargeAt (rightDim Ws) 0 = 0

/-- The physical dimensions of a chain. -/
def physDims (ts : List (BT G 𝕜)) : List (Dim G) := ts.map fun t => t.shape.getD 1 []

/-- A chain that a run of the DMRG returned, or showed to the logger. -/
def SeenBy (fin : List (BT G 𝕜)) (log : List (Event (BT G 𝕜) ℝ)) (s : List (BT G 𝕜)) : Prop :=
  s = fin ∨ ∃ n x, Event.iteration n x s ∈ log

theorem InSector.charge [AddCommGroup G] [DecidableEq G] {Ws s0 s : List (BT G 𝕜)} (h : InSector Ws s0 s) (hne : s0 ≠ []) {σ : List Nat}
    (hσ : σ.length = s.length) (ha : amp (s.map denseOf) σ 0 0 ≠ 0) :
    chargeAt (leftDim s0) 0 + configCharge (physDims s0) σ + chargeAt (rightDim s0) 0 = (s0.map BT.rule).sum := by
  have hl := SameOuter.length_eq h.outer
  have := amp_charge s (by rintro rfl; exact hne (List.length_eq_zero_iff.1 (by simpa using hl.symm))) h.fit.ket σ 0 0 hσ ha
  rw [h.outer.left, h.outer.right, h.outer.rule, h.outer.phys] at this
  exact this

/-- **C103** (partial: every local update must leave the blocks of its factors in order, see `Orderly`, and meet fewer than 2^63 sections).  A run
of the block DMRG that returns stays in the sector of its starting state: whatever the Hamiltonian, the cutoff, the limits of the bond and
the number of iterations, every configuration with an amplitude other than zero in the state returned, or in a state shown to the logger,
has the charge of every such configuration of the starting state. -/
theorem C103_stays_partial [AddCommGroup G] [LinearOrder G] (late : Bool) (Ws sites : List (BT G 𝕜))
    {fac : Blk 𝕜 → Blk 𝕜 × Blk 𝕜 × Blk 𝕜} (hfac : DenseSvd fac) (eps cutoff : ℝ) (minB maxB : Nat)
    (hF : BlockFit sites Ws sites) (hp : AllPositive sites) (hc : Closed (sites.map denseOf)) (hW : ConservingOp Ws)
    (h2 : 2 ≤ sites.length) (hsm : sites.length < 2 ^ 63) (oc : Nat) (ho : oc < sites.length)
    (dflt : Res (BT G 𝕜)) (above : ℝ → ℝ → Bool) (zeroNorm : List (BT G 𝕜) → Bool)
    (moveOc : List (BT G 𝕜) → Nat → Nat → Res (List (BT G 𝕜) × Nat)) (e0 : ℝ) (maxIt : Nat)
    (hreg : DM.RunAll (cutDmrgB late Ws fac eps cutoff minB maxB sites) (CutCountable late Ws sites fac eps cutoff minB maxB)
      (DM.tours sites.length (startPair sites.length oc) maxIt) sites)
    {e : ℝ} {fin : List (BT G 𝕜)} {oc' : Nat} {log : List (Event (BT G 𝕜) ℝ)}
    (hrun : DM.dmrg false (cutDmrgB late Ws fac eps cutoff minB maxB sites) dflt above zeroNorm moveOc e0 maxIt sites.length sites oc
        = .ok (e, fin, oc', log)) {σ0 : List Nat} (hσ0 : σ0.length = sites.length) (ha : amp (sites.map denseOf) σ0 0 0 ≠ 0) :
    ∀ s, SeenBy fin log s → physDims s = physDims sites ∧ ChargeSector (physDims s) s (configCharge (physDims sites) σ0) := by
  have hne : sites ≠ [] := by rintro rfl; simp at h2
  obtain ⟨h1, h3⟩ := sector_run late Ws sites hfac eps cutoff minB maxB hF hp hW.positive hc hW.closed (.inr hW.edges) hW.neutral h2 hsm oc ho
    dflt above zeroNorm moveOc e0 maxIt hreg hrun
  have base := InSector.charge (s := sites) ⟨hF, SameOuter.refl _, hp⟩ hne hσ0 ha
  intro s hs
  have hI : InSector Ws sites s := by
    rcases hs with rfl | ⟨n, x, hm⟩
    · exact h1
    · exact h3 n x s hm
  have hphys : physDims s = physDims sites := hI.outer.phys
  refine ⟨hphys, fun σ hσ hx => ?_⟩
  have := InSector.charge hI hne hσ hx
  rw [← base, add_left_inj, add_right_inj] at this
  rw [hphys]
  exact this

/-- **C103** (partial, as above).  The block DMRG that makes its own starting state, from a Hamiltonian and a conserved quantity: if it
returns, every configuration with an amplitude other than zero in the state returned, or in a state shown to the logger, has the requested
total charge. -/
theorem C103_cold_partial [AddCommGroup G] [LinearOrder G] (dist : G → G → Int) (hdist : IsDist dist) (ρ : Nat → Nat → Nat)
    (rnd : Nat → List Nat → List Nat → List Nat → 𝕜) (late : Bool) (Ws : List (BT G 𝕜))
    {fac : Blk 𝕜 → Blk 𝕜 × Blk 𝕜 × Blk 𝕜} (hfac : DenseSvd fac) (eps cutoff : ℝ) (minB maxB : Nat) (hmin : 0 < minB) (hmin' : minB < 2 ^ 63)
    (hW : ConservingOp Ws) (h2 : 2 ≤ Ws.length) (hsm : Ws.length < 2 ^ 63)
    (dflt : Res (BT G 𝕜)) (above : ℝ → ℝ → Bool) (zeroNorm : List (BT G 𝕜) → Bool)
    (moveOc : List (BT G 𝕜) → Nat → Nat → Res (List (BT G 𝕜) × Nat)) (e0 : ℝ) (maxIt : Nat) (qnum : G)
    (hreg : ∀ sites, randomFor dist minB Ws qnum ρ rnd = .ok sites →
      DM.RunAll (cutDmrgB late Ws fac eps cutoff minB maxB sites) (CutCountable late Ws sites fac eps cutoff minB maxB)
        (DM.tours sites.length 0 maxIt) sites)
    {e : ℝ} {fin : List (BT G 𝕜)} {oc' : Nat} {log : List (Event (BT G 𝕜) ℝ)}
    (hrun : coldDmrg dist ρ rnd late fac eps cutoff minB maxB dflt above zeroNorm moveOc e0 maxIt Ws qnum = .ok (e, fin, oc', log)) :
    ∀ s, SeenBy fin log s → physDims s = physDims Ws ∧ ChargeSector (physDims Ws) s qnum := by
  have hne : Ws ≠ [] := by rintro rfl; simp at h2
  unfold coldDmrg at hrun
  cases hr : randomFor dist minB Ws qnum ρ rnd with
  | error g => rw [hr] at hrun; cases hrun
  | ok sites =>
    rw [hr] at hrun
    simp only [bind, Except.bind] at hrun
    have hr' := hr
    unfold randomFor at hr'
    rw [physFroms_ok Ws (fun W h => (hW.chained.1 W h).2) hW.positive] at hr'
    simp only [bind, Except.bind, randomUnitList] at hr'
    rw [if_neg (by simpa using hne)] at hr'
    have hB := randomUnit_chain dist hdist minB hmin _ (by simpa using hne) (by
      intro d hd
      obtain ⟨W, hm, rfl⟩ := List.mem_map.1 hd
      have h4 := (hW.chained.1 W hm).2
      rw [dimSize_flipped, List.getD_eq_getElem _ _ (by omega)]
      exact hW.positive W hm _ (List.getElem_mem _)) _ _ _ _ hr'
    obtain ⟨c1, c2, c3, c4, c5, c6⟩ := chain_fits hmin hmin' hW.chained hW.dual hW.positive hne hB
    have hlen : sites.length = Ws.length := by simpa using congrArg List.length c6
    have hsne : sites ≠ [] := by intro e; rw [e] at hlen; simp at hlen; omega
    have hst : startPair sites.length 0 = 0 := by unfold startPair; split <;> omega
    rw [← hlen] at hrun
    obtain ⟨h1, h3⟩ := sector_run late Ws sites hfac eps cutoff minB maxB c1 c2 hW.positive
      ⟨by rw [leftEnd_dense, c3]; rfl, by rw [rightEnd_dense, c4]; rfl⟩ hW.closed (.inr hW.edges) hW.neutral (by omega) (by omega) 0 (by omega)
      dflt above zeroNorm moveOc e0 maxIt (by rw [hst]; exact hreg sites hr) hrun
    intro s hs
    have hI : InSector Ws sites s := by
      rcases hs with rfl | ⟨n, x, hm⟩
      · exact h1
      · exact h3 n x s hm
    have hphys : physDims s = physDims sites := hI.outer.phys
    refine ⟨hphys.trans c6, fun σ hσ hx => ?_⟩
    have := InSector.charge hI hsne hσ hx
    rw [c3, c4, c5] at this
    rw [show physDims Ws = physDims sites from c6.symm]
    simpa [chargeAt, locate] using this

end QuantiT.BN
