import Verif.Lemmas.BlockGround
import Verif.Lemmas.GroundModels
import Verif.Props.BlockCutRun
import Verif.Props.HamilCut
import Verif.Props.Ground
import Verif.Props.Sector
/-
C115: the ground state search with conserved charges on the Hamiltonians of the library.
-/
namespace QuantiT
namespace BN
open Spec BT MP HM Finset Matrix
variable {G : Type} [AddCommGroup G] [LinearOrder G]

/-- What the operators of the library with conserved charges are, whatever their entries; `p` is the charge of their ends. -/
structure BlockOperator (L d : Nat) (ph : Dim G) (p : G) (H : Matrix (Fin L → Fin d) (Fin L → Fin d) ℝ) (Ws : List (BT G ℝ)) : Prop where
  len : Ws.length = L
  chain : Chained 4 Ws
  outer : ∀ W ∈ Ws, W.rule = 0 ∧ W.shape.getD 1 [] = ph ∧ W.shape.getD 3 [] = flipped ph
  positive : AllPositive Ws
  left : leftDim Ws = [(1, p)]
  right : rightDim Ws = [(1, -p)]
  matrix : mpoMatrix L d (Ws.map denseOf) = H
  herm : H.IsHermitian

/-- A block state of `L` sites of `d` states with the charges of `ph`, of norm one, canonical around site `oc`, and of charge `q`. -/
structure BlockStart (L d : Nat) (ph : Dim G) (q : G) (oc : Nat) (s : List (BT G ℝ)) : Prop where
  chain : Chained 3 s
  closed : Closed (s.map denseOf)
  phys : s.map (fun t => t.shape.getD 1 []) = List.replicate L ph
  inside : oc < L
  canon : Canonical (s.map denseOf) oc
  norm : Normalised (stateVec L d (s.map denseOf))
  charge : OfCharge ph q (stateVec L d (s.map denseOf))

/-- What a search without truncation returns: a state of the charge of the one it was given. -/
structure BlockGround (L d : Nat) (ph : Dim G) (q : G) (H : Matrix (Fin L → Fin d) (Fin L → Fin d) ℝ) (sites : List (BT G ℝ)) (e : ℝ)
    (fin : List (BT G ℝ)) (log : List (Event (BT G ℝ) ℝ)) : Prop where
  phys : fin.map (fun t => t.shape.getD 1 []) = List.replicate L ph
  norm : Normalised (stateVec L d (fin.map denseOf))
  charge : OfCharge ph q (stateVec L d (fin.map denseOf))
  value : e = expectation H (stateVec L d (fin.map denseOf))
  lower : e ≤ expectation H (stateVec L d (sites.map denseOf))
  bound : ∀ E, LowestIn ph q H E → E ≤ e
  logged : ∀ n x s, Event.iteration n x s ∈ log → Normalised (stateVec L d (s.map denseOf)) ∧ OfCharge ph q (stateVec L d (s.map denseOf)) ∧
    x = expectation H (stateVec L d (s.map denseOf)) ∧ e ≤ x
  falling : ∀ n x s x' s', Event.iteration n x s ∈ log → Event.iteration (n + 1) x' s' ∈ log → x' ≤ x

/-- What a search with bonds cut at `cutoff` and at most `maxB` returns. -/
structure BlockCut (L d : Nat) (ph : Dim G) (q : G) (H : Matrix (Fin L → Fin d) (Fin L → Fin d) ℝ) (cutoff : ℝ) (maxB : Nat) (e : ℝ)
    (fin : List (BT G ℝ)) (log : List (Event (BT G ℝ) ℝ)) : Prop where
  last : ∃ n, Event.iteration n e fin ∈ log ∧ ∀ n' x s', Event.iteration n' x s' ∈ log → n' ≤ n
  logged : ∀ n x s, Event.iteration n x s ∈ log → s.map (fun t => t.shape.getD 1 []) = List.replicate L ph ∧
    Normalised (stateVec L d (s.map denseOf)) ∧ OfCharge ph q (stateVec L d (s.map denseOf)) ∧
    (∀ E, LowestIn ph q H E → E ≤ expectation H (stateVec L d (s.map denseOf))) ∧
    ∀ E0 E1, Lowest H E0 → Highest H E1 → E0 ≤ x ∧ x ≤ E1 ∧
      ((∀ o, o + 1 < s.length → usedBond (s.map denseOf) o < maxB) → |x - expectation H (stateVec L d (s.map denseOf))| ≤ (E1 - E0) * cutoff)

section
variable {L d : Nat} {ph : Dim G} {p : G} {H : Matrix (Fin L → Fin d) (Fin L → Fin d) ℝ} {Ws : List (BT G ℝ)}

theorem BlockOperator.closed (h : BlockOperator L d ph p H Ws) : Closed (Ws.map denseOf) := by
  refine ⟨?_, ?_⟩
  · rw [leftEnd_dense, h.left]; rfl
  · rw [rightEnd_dense, h.right]; rfl

theorem BlockOperator.ends (h : BlockOperator L d ph p H Ws) : chargeAt (leftDim Ws) 0 = p ∧ chargeAt (rightDim Ws) 0 = -p := by
  rw [h.left, h.right]
  exact ⟨rfl, rfl⟩

theorem BlockOperator.neutral (h : BlockOperator L d ph p H Ws) : Neutral Ws := by
  unfold Neutral
  rw [h.ends.1, h.ends.2, add_neg_cancel]
  refine List.sum_eq_zero fun x hx => ?_
  obtain ⟨W, hW, rfl⟩ := List.mem_map.1 hx
  exact (h.outer W hW).1

/-- The Hamiltonian commutes with the charge. -/
theorem BlockOperator.keeps (h : BlockOperator L d ph p H Ws) (hL : 0 < L) : KeepsCharge ph H := by
  intro τ σ hne
  have := mpo_charge ph Ws (by intro e; have := h.len; rw [e] at this; simp at this; omega) h.chain h.outer (extend τ) (extend σ) 0 0
    (by rw [← h.matrix] at hne; exact hne)
  rw [h.ends.1, h.ends.2, h.len, extend_charge, extend_charge] at this
  rw [← this]
  abel

theorem phys_replicate {s : List (BT G ℝ)} (hs : s.map (fun t => t.shape.getD 1 []) = List.replicate L ph) (hd : dimSize ph = d) :
    phys (s.map denseOf) = List.replicate L d := by
  have : phys (s.map denseOf) = (s.map fun x => x.shape.getD 1 []).map dimSize := by
    unfold Spec.phys
    rw [List.map_map, List.map_map]
    refine List.map_congr_left fun x _ => ?_
    simp only [Function.comp, denseOf_dims]
    rw [getD_dimSize]
  rw [this, hs, List.map_replicate, hd]

theorem BlockOperator.fit (h : BlockOperator L d ph p H Ws) {s : List (BT G ℝ)} (hc : Chained 3 s)
    (hs : s.map (fun t => t.shape.getD 1 []) = List.replicate L ph) : BlockFit s Ws s := by
  have hlen : s.length = L := by simpa using congrArg List.length hs
  have get : ∀ (i : Nat) (hi : i < s.length), (s[i].shape.getD 1 []) = ph := by
    intro i hi
    have := congrArg (fun l : List (Dim G) => l[i]?) hs
    simp only [List.getElem?_map, List.getElem?_eq_getElem hi, Option.map_some] at this
    rw [List.getElem?_eq_getElem (by simp; omega)] at this
    simpa using this
  refine ⟨hc, h.chain, hc, ?_, ?_⟩
  · rw [List.forall₂_iff_get]
    refine ⟨by rw [hlen, h.len], fun i h1 h2 => ?_⟩
    simp only [List.get_eq_getElem]
    rw [get i h1, (h.outer Ws[i] (List.getElem_mem _)).2.2]
    exact opposite_flipped ph
  · rw [List.forall₂_iff_get]
    refine ⟨by rw [hlen, h.len], fun i h1 h2 => ?_⟩
    simp only [List.get_eq_getElem]
    rw [get i h2, (h.outer Ws[i] (List.getElem_mem _)).2.1]

/-- A chain with the outer dimensions of a chain of charge `q` has charge `q`. -/
theorem charge_kept {q : G} {oc : Nat} {sites s : List (BT G ℝ)} (hs : BlockStart L d ph q oc sites) (hL : 0 < L) (hd : dimSize ph = d) (hc : Chained 3 s)
    (ho : SameOuter sites s) : OfCharge ph q (stateVec L d (s.map denseOf)) := by
  have hlen : sites.length = L := by simpa using congrArg List.length hs.phys
  have hlen' : s.length = L := (SameOuter.length_eq ho).trans hlen
  have hne : sites ≠ [] := by rintro rfl; simp at hlen; omega
  have hne' : s ≠ [] := by rintro rfl; simp at hlen'; omega
  have key : ∀ t : List (BT G ℝ), t ≠ [] → Chained 3 t → t.length = L → t.map (fun t => t.shape.getD 1 []) = List.replicate L ph →
      ∀ σ : Fin L → Fin d, stateVec L d (t.map denseOf) σ ≠ 0 →
      chargeAt (leftDim t) 0 + totalCharge ph σ + chargeAt (rightDim t) 0 = (t.map BT.rule).sum := by
    intro t h0 ht hl hp σ hσ
    have := amp_charge t h0 ht (List.ofFn fun i => (σ i).val) 0 0 (by simp [hl]) hσ
    rw [hp, configCharge_ofFn] at this
    exact this
  obtain ⟨σ0, h0⟩ : ∃ σ0, stateVec L d (sites.map denseOf) σ0 ≠ 0 := by
    by_contra hcon
    push Not at hcon
    have := hs.norm
    unfold Normalised at this
    rw [funext hcon] at this
    simp at this
  have e0 := key sites hne hs.chain hlen hs.phys σ0 h0
  rw [hs.charge σ0 h0] at e0
  intro σ hσ
  have e1 := key s hne' hc hlen' (ho.phys.trans hs.phys) σ hσ
  rw [ho.left, ho.right, ho.rule, ← e0, add_left_inj, add_right_inj] at e1
  exact e1

theorem block_ground {q : G} (hO : BlockOperator L d ph p H Ws) (hd : dimSize ph = d) (hL : 2 ≤ L) (hsm : L < 2 ^ 63) (late : Bool) (hl : late = false ∨ p = 0)
    {fac : Blk ℝ → Blk ℝ × Blk ℝ × Blk ℝ} (hfac : DenseSvd fac) {sites : List (BT G ℝ)} {oc : Nat} (hs : BlockStart L d ph q oc sites)
    (dflt : Res (BT G ℝ)) (above : ℝ → ℝ → Bool) (zeroNorm : List (BT G ℝ) → Bool)
    (moveOc : List (BT G ℝ) → Nat → Nat → Res (List (BT G ℝ) × Nat)) (e0 : ℝ) (maxIt : Nat) (hmax : 1 ≤ maxIt)
    (hreg : DM.RunAll (bDmrg late Ws (fun t => svdSplit fac t 2) sites) (Admissible late Ws sites) (DM.tours L (startPair L oc) maxIt) sites) :
    ∃ e fin log, DM.dmrg false (bDmrg late Ws (fun t => svdSplit fac t 2) sites) dflt above zeroNorm moveOc e0 maxIt L sites oc
        = .ok (e, fin, startPair L oc, log) ∧ BlockGround L d ph q H sites e fin log := by
  have hlen : sites.length = L := by simpa using congrArg List.length hs.phys
  have hp := phys_replicate hs.phys hd
  subst hlen
  obtain ⟨e, fin, log, c1, c2, c3, c4, c5, c6, c7, -, c9, c10⟩ := C82_descent_partial late Ws sites fac hfac.sizes hfac.product hfac.ortho
    (fun _ _ _ _ _ _ _ _ _ => star_trivial _) (hO.fit hs.chain hs.phys) hO.positive hs.closed hO.closed
    (hl.imp id fun h => by rw [hO.ends.1, hO.ends.2, h]; simp) hO.neutral (by rw [hp]; exact DM.hermitianOp_of hO.matrix hO.herm) hL hsm oc hs.inside
    hs.canon ((DM.normSq_eq hp).2 hs.norm) dflt above zeroNorm moveOc e0 maxIt hmax hreg
  have hp1 := c3.phys.trans hs.phys
  have hp2 := phys_replicate hp1 hd
  have hn := (DM.normSq_eq hp2).1 c4
  have hq := charge_kept hs (by omega) hd c2.ket c3
  have hv : e = expectation H (stateVec sites.length d (fin.map denseOf)) := by rw [c5, DM.energy_eq hp2, hO.matrix]
  refine ⟨e, fin, log, c1, hp1, hn, hq, hv, ?_, ?_, ?_, c10⟩
  · rw [DM.energy_eq hp, hO.matrix] at c6
    exact c6
  · intro E hE
    have := lowestIn_le hO.herm (hO.keeps (by omega)) hE _ hq
    rw [(DM.normalised_iff _).1 hn, mul_one] at this
    rw [hv]
    exact this
  · intro n x s hx
    obtain ⟨k1, k2, k3, k4, -, k6⟩ := c9 n x s hx
    have hp' := phys_replicate (k3.phys.trans hs.phys) hd
    exact ⟨(DM.normSq_eq hp').1 k2, charge_kept hs (by omega) hd k6.ket k3, by rw [k1, DM.energy_eq hp', hO.matrix], k4⟩

theorem block_cut {q : G} (hO : BlockOperator L d ph p H Ws) (hd : dimSize ph = d) (hL : 2 ≤ L) (hsm : L < 2 ^ 63) (late : Bool) (hl : late = false ∨ p = 0)
    {fac : Blk ℝ → Blk ℝ × Blk ℝ × Blk ℝ} (hfac : DenseSvd fac) (eps cutoff : ℝ) (he0 : 0 < eps) (he1 : eps ≤ 1 / 2) (hcut : 0 ≤ cutoff)
    (minB maxB : Nat) (hmin : 1 ≤ minB ∨ cutoff < 1 ∧ 1 ≤ maxB) {sites : List (BT G ℝ)} {oc : Nat} (hs : BlockStart L d ph q oc sites)
    (dflt : Res (BT G ℝ)) (above : ℝ → ℝ → Bool) (zeroNorm : List (BT G ℝ) → Bool)
    (moveOc : List (BT G ℝ) → Nat → Nat → Res (List (BT G ℝ) × Nat)) (e0 : ℝ) (maxIt : Nat) (hmax : 1 ≤ maxIt)
    (hreg : DM.RunAll (cutDmrgB late Ws fac eps cutoff minB maxB sites) (CutAdmissible late Ws sites fac eps cutoff minB maxB)
      (DM.tours L (startPair L oc) maxIt) sites) :
    ∃ e fin log, DM.dmrg false (cutDmrgB late Ws fac eps cutoff minB maxB sites) dflt above zeroNorm moveOc e0 maxIt L sites oc
        = .ok (e, fin, startPair L oc, log) ∧ BlockCut L d ph q H cutoff maxB e fin log := by
  have hlen : sites.length = L := by simpa using congrArg List.length hs.phys
  have hp := phys_replicate hs.phys hd
  subst hlen
  obtain ⟨e, fin, log, c1, c2, c3⟩ := C97_run_partial late Ws sites hfac eps cutoff he0 he1 hcut minB maxB hmin (hO.fit hs.chain hs.phys) hO.positive
    hs.closed hO.closed (hl.imp id fun h => by rw [hO.ends.1, hO.ends.2, h]; simp) hO.neutral (by rw [hp]; exact DM.hermitianOp_of hO.matrix hO.herm)
    hL hsm oc hs.inside (DM.canonical_semi hs.canon) ((DM.normSq_eq hp).2 hs.norm) dflt above zeroNorm moveOc e0 maxIt hmax hreg
  refine ⟨e, fin, log, c1, c2, fun n x s hx => ?_⟩
  obtain ⟨k1, k2, k3, -, k5, k6, k7⟩ := c3 n x s hx
  have hp1 := k2.phys.trans hs.phys
  have hp2 := phys_replicate hp1 hd
  have hn := (DM.normSq_eq hp2).1 k3
  have hq := charge_kept hs (by omega) hd k1.ket k2
  refine ⟨hp1, hn, hq, fun E hE => ?_, fun E0 E1 hE0 hE1 => ?_⟩
  · have := lowestIn_le hO.herm (hO.keeps (by omega)) hE _ hq
    rw [(DM.normalised_iff _).1 hn, mul_one] at this
    exact this
  · have hlo := DM.boundedBelow_of hO.matrix (DM.lowest_le hO.herm hE0)
    have hhi := DM.boundedAbove_of hO.matrix (DM.le_highest hO.herm hE1)
    rw [← hp] at hlo hhi
    refine ⟨k5 _ hlo, k6 _ hhi, fun hb => ?_⟩
    rw [← hO.matrix, ← DM.energy_eq hp2]
    exact k7 hb _ _ hlo hhi

end

/-! ### The Hamiltonians of the library -/

theorem coalesce_operator {fac : Blk ℝ → Blk ℝ × Blk ℝ × Blk ℝ} (hfac : DenseSvd fac) (eps : ℝ) (he0 : 0 < eps) (he1 : eps ≤ 1 / 2)
    {L d D : Nat} {ph : Dim G} {p : G} {H : Matrix (Fin L → Fin d) (Fin L → Fin d) ℝ} {Ws : List (BT G ℝ)} (hL : 0 < L) (hlen : Ws.length = L)
    (hc : Compressible Ws) (ho : OuterOf ph D Ws) (hl : leftDim Ws = [(1, p)]) (hr : rightDim Ws = [(1, -p)])
    (hm : mpoMatrix L d (Ws.map denseOf) = H) (hH : H.IsHermitian) :
    ∃ N out, (∀ fuel, N ≤ fuel → coalesceB fuel fac eps 0 Ws = some (.ok out)) ∧ BlockOperator L d ph p H out := by
  obtain ⟨N, out, c1, c2, c3, c4, c5, c6, -, c8⟩ := C104_coalesce_partial hfac eps he0 he1 Ws (by rintro rfl; simp at hlen; omega) hc
  refine ⟨N, out, c1, c2.trans hlen, c3, ?_, fun W hW => (c8 W hW).2, c4.left.trans hl, c4.right.trans hr, ?_, hH⟩
  · intro T hT
    obtain ⟨i, hi⟩ := List.mem_iff_getElem?.1 hT
    have hl := (List.getElem?_eq_some_iff.1 hi).1
    obtain ⟨X, hX⟩ : ∃ X, Ws[i]? = some X := ⟨_, List.getElem?_eq_getElem (by omega)⟩
    obtain ⟨x1, x2, x3, x4⟩ := ho X (List.mem_of_getElem? hX)
    have e1 := congrArg (fun l : List G => l[i]?) c4.rule
    have e2 := congrArg (fun l : List (Dim G) => l[i]?) c4.rows
    have e3 := congrArg (fun l : List (Dim G) => l[i]?) c4.cols
    simp only [List.getElem?_map, hi, hX, Option.map_some, Option.some.injEq] at e1 e2 e3
    exact ⟨e1.trans x1, e2.trans x2, e3.trans x3⟩
  · rw [← hm]
    ext s t
    exact c5 _ _ _ _

theorem heisenbergB_operator {fac : Blk ℝ → Blk ℝ × Blk ℝ × Blk ℝ} (hfac : DenseSvd fac) (eps : ℝ) (he0 : 0 < eps) (he1 : eps ≤ 1 / 2)
    (J : ℝ) (L : Nat) (hL : 2 ≤ L) (phys : BT G ℝ) (ph : Dim G) (hs : phys.shape = [ph])
    (hn : ph.length < 2 ^ 63) (hps : ∀ s ∈ ph, 0 < s.1) (h2 : dimSize ph = 2) (hq0 : chargeAt ph 0 + chargeAt ph 0 = chargeAt ph 1)
    (hq1 : chargeAt ph 1 + chargeAt ph 1 = chargeAt ph 0) (hJ : 4 / 10 ^ 4 < |J|) :
    ∃ N Ws, (∀ fuel, N ≤ fuel → heisenbergB fuel fac eps J L phys = some (.ok Ws)) ∧ BlockOperator L 2 ph 0 (heisenbergH J L) Ws := by
  obtain ⟨H, h1, h3, h4, h5, h6, h7⟩ := heisenberg_compressible J L hL phys ph hs hn hps h2 hq0 hq1 hJ
  obtain ⟨H', g1, -, -, -, g5⟩ := C84_heisenberg_partial J L hL phys ph hs hn h2 hq0 hq1 (.inr hJ)
  rw [h1] at g1
  cases g1
  have hm : mpoMatrix L 2 (H.map denseOf) = heisenbergH J L := by
    rw [g5]
    obtain ⟨Ws, w1, w2⟩ := DM.heisenberg_operator (𝕜 := ℝ) J L hL
    obtain ⟨Ws', w3, -, -, w4⟩ := C55_heisenberg J L hL
    have e : Ws = Ws' := Except.ok.inj (w1.symm.trans w3)
    rw [← w4, ← e]
    exact w2.matrix
  obtain ⟨N, out, c1, c2⟩ := coalesce_operator hfac eps he0 he1 (by omega) h3 h4 h5 h6 h7 hm (DM.heisenbergH_herm J L)
  exact ⟨N, out, fun fuel hf => by rw [heisenbergB, h1, andThen_ok, c1 fuel hf], c2⟩

theorem hubbardB_operator {fac : Blk ℝ → Blk ℝ × Blk ℝ × Blk ℝ} (hfac : DenseSvd fac) (eps : ℝ) (he0 : 0 < eps) (he1 : eps ≤ 1 / 2)
    (U mu : ℝ) (L : Nat) (hL : 2 ≤ L) (phys : BT G ℝ) (ph : Dim G) (hs : phys.shape = [ph])
    (hn : ph.length < 2 ^ 63) (hps : ∀ s ∈ ph, 0 < s.1) (h4 : dimSize ph = 4) (hq0 : chargeAt ph 0 + chargeAt ph 0 = 0)
    (hq1 : chargeAt ph 0 + chargeAt ph 3 = chargeAt ph 1 + chargeAt ph 2) (hm : mu = 0 ∨ 1 / 10 ^ 4 < |mu|)
    (hU : U - 2 * mu = 0 ∨ 1 / 10 ^ 4 < |U - 2 * mu|) :
    ∃ N Ws, (∀ fuel, N ≤ fuel → hubbardB fuel fac eps U mu L phys = some (.ok Ws)) ∧ BlockOperator L 4 ph (chargeAt ph 0) (hubbardH U mu L) Ws := by
  obtain ⟨H, h1, h3, h5, h6, h7, h8⟩ := hubbard_compressible U mu L hL phys ph hs hn hps h4 hq0 hq1 hm hU
  obtain ⟨H', g1, -, -, -, g5⟩ := C84_hubbard_partial U mu L hL phys ph hs hn h4 hq0 hq1 hm hU
  rw [h1] at g1
  cases g1
  obtain ⟨N, out, c1, c2⟩ := coalesce_operator hfac eps he0 he1 (by omega) h3 h5 h6 h7 h8 (g5.trans (DM.hubbardH_eq (𝕜 := ℝ) U mu L).symm)
    (DM.hubbardH_herm U mu L)
  exact ⟨N, out, fun fuel hf => by rw [hubbardB, h1, andThen_ok, c1 fuel hf], c2⟩

/-- **C115** (partial: every local update of the run must be one of those C81, or C97 with truncation, speaks of; it is not claimed that the
energy returned is the lowest, which is false of DMRG).  The search with the Hubbard Hamiltonian the library makes for conserved charges, from any
block state of charge `q` and norm one that is canonical around its center.  Without truncation: it returns; the state returned and the states
logged have norm one and charge `q`; the energy returned is the expectation value of `∑ (U n↑ n↓ - μ (n↑ + n↓)) + ∑ (c†_i c_{i+1} + c†_{i+1} c_i)`
in the state returned, at most that in the initial state, and at least the lowest eigenvalue of that matrix among states of charge `q`.  With
truncation: the states logged have norm one and charge `q`, and the energies are within the spectrum and off by at most the cutoff times its width. -/
theorem C115_hubbard_partial {fac : Blk ℝ → Blk ℝ × Blk ℝ × Blk ℝ} (hfac : DenseSvd fac) (eps : ℝ) (he0 : 0 < eps) (he1 : eps ≤ 1 / 2)
    (U mu : ℝ) (L : Nat) (hL : 2 ≤ L) (hsm : L < 2 ^ 63) (phys : BT G ℝ) (ph : Dim G) (hs : phys.shape = [ph])
    (hn : ph.length < 2 ^ 63) (hps : ∀ s ∈ ph, 0 < s.1) (h4 : dimSize ph = 4) (hq0 : chargeAt ph 0 + chargeAt ph 0 = 0)
    (hq1 : chargeAt ph 0 + chargeAt ph 3 = chargeAt ph 1 + chargeAt ph 2) (hm : mu = 0 ∨ 1 / 10 ^ 4 < |mu|)
    (hU : U - 2 * mu = 0 ∨ 1 / 10 ^ 4 < |U - 2 * mu|) :
    ∃ N Ws, (∀ fuel, N ≤ fuel → hubbardB fuel fac eps U mu L phys = some (.ok Ws)) ∧ KeepsCharge ph (hubbardH U mu L : Matrix _ _ ℝ) ∧
      ∀ (late : Bool) (_ : late = false ∨ chargeAt ph 0 = 0)
        (q : G) (sites : List (BT G ℝ)) (oc : Nat), BlockStart L 4 ph q oc sites →
      ∀ (dflt : Res (BT G ℝ)) (above : ℝ → ℝ → Bool) (zeroNorm : List (BT G ℝ) → Bool) (moveOc : List (BT G ℝ) → Nat → Nat → Res (List (BT G ℝ) × Nat))
        (e0 : ℝ) (maxIt : Nat), 1 ≤ maxIt →
        (DM.RunAll (bDmrg late Ws (fun t => svdSplit fac t 2) sites) (Admissible late Ws sites) (DM.tours L (startPair L oc) maxIt) sites →
          ∃ e fin log, DM.dmrg false (bDmrg late Ws (fun t => svdSplit fac t 2) sites) dflt above zeroNorm moveOc e0 maxIt L sites oc
            = .ok (e, fin, startPair L oc, log) ∧ BlockGround L 4 ph q (hubbardH U mu L) sites e fin log) ∧
        ∀ (cutoff : ℝ) (minB maxB : Nat), 0 ≤ cutoff → (1 ≤ minB ∨ cutoff < 1 ∧ 1 ≤ maxB) →
          DM.RunAll (cutDmrgB late Ws fac eps cutoff minB maxB sites) (CutAdmissible late Ws sites fac eps cutoff minB maxB)
            (DM.tours L (startPair L oc) maxIt) sites →
          ∃ e fin log, DM.dmrg false (cutDmrgB late Ws fac eps cutoff minB maxB sites) dflt above zeroNorm moveOc e0 maxIt L sites oc
            = .ok (e, fin, startPair L oc, log) ∧ BlockCut L 4 ph q (hubbardH U mu L) cutoff maxB e fin log := by
  obtain ⟨N, Ws, h1, hO⟩ := hubbardB_operator hfac eps he0 he1 U mu L hL phys ph hs hn hps h4 hq0 hq1 hm hU
  refine ⟨N, Ws, h1, hO.keeps (by omega), fun late hl q sites oc hs' dflt above zeroNorm moveOc e0 maxIt hmax => ⟨fun hreg => ?_, fun cutoff minB maxB hcut hmin hreg => ?_⟩⟩
  · exact block_ground hO h4 hL hsm late hl hfac hs' dflt above zeroNorm moveOc e0 maxIt hmax hreg
  · exact block_cut hO h4 hL hsm late hl hfac eps cutoff he0 he1 hcut minB maxB hmin hs' dflt above zeroNorm moveOc e0 maxIt hmax hreg

/-- **C115** (partial: as `C115_hubbard_partial`).  The same with the Heisenberg Hamiltonian the library makes for conserved charges, whose matrix is
`-J/4 ∑ (σx σx + σy σy + σz σz)`. -/
theorem C115_heisenberg_partial {fac : Blk ℝ → Blk ℝ × Blk ℝ × Blk ℝ} (hfac : DenseSvd fac) (eps : ℝ) (he0 : 0 < eps) (he1 : eps ≤ 1 / 2)
    (J : ℝ) (L : Nat) (hL : 2 ≤ L) (hsm : L < 2 ^ 63) (phys : BT G ℝ) (ph : Dim G) (hs : phys.shape = [ph])
    (hn : ph.length < 2 ^ 63) (hps : ∀ s ∈ ph, 0 < s.1) (h2 : dimSize ph = 2) (hq0 : chargeAt ph 0 + chargeAt ph 0 = chargeAt ph 1)
    (hq1 : chargeAt ph 1 + chargeAt ph 1 = chargeAt ph 0) (hJ : 4 / 10 ^ 4 < |J|) :
    ∃ N Ws, (∀ fuel, N ≤ fuel → heisenbergB fuel fac eps J L phys = some (.ok Ws)) ∧ KeepsCharge ph (heisenbergH J L : Matrix _ _ ℝ) ∧
      ∀ (late : Bool)
        (q : G) (sites : List (BT G ℝ)) (oc : Nat), BlockStart L 2 ph q oc sites →
      ∀ (dflt : Res (BT G ℝ)) (above : ℝ → ℝ → Bool) (zeroNorm : List (BT G ℝ) → Bool) (moveOc : List (BT G ℝ) → Nat → Nat → Res (List (BT G ℝ) × Nat))
        (e0 : ℝ) (maxIt : Nat), 1 ≤ maxIt →
        (DM.RunAll (bDmrg late Ws (fun t => svdSplit fac t 2) sites) (Admissible late Ws sites) (DM.tours L (startPair L oc) maxIt) sites →
          ∃ e fin log, DM.dmrg false (bDmrg late Ws (fun t => svdSplit fac t 2) sites) dflt above zeroNorm moveOc e0 maxIt L sites oc
            = .ok (e, fin, startPair L oc, log) ∧ BlockGround L 2 ph q (heisenbergH J L) sites e fin log) ∧
        ∀ (cutoff : ℝ) (minB maxB : Nat), 0 ≤ cutoff → (1 ≤ minB ∨ cutoff < 1 ∧ 1 ≤ maxB) →
          DM.RunAll (cutDmrgB late Ws fac eps cutoff minB maxB sites) (CutAdmissible late Ws sites fac eps cutoff minB maxB)
            (DM.tours L (startPair L oc) maxIt) sites →
          ∃ e fin log, DM.dmrg false (cutDmrgB late Ws fac eps cutoff minB maxB sites) dflt above zeroNorm moveOc e0 maxIt L sites oc
            = .ok (e, fin, startPair L oc, log) ∧ BlockCut L 2 ph q (heisenbergH J L) cutoff maxB e fin log := by
  obtain ⟨N, Ws, h1, hO⟩ := heisenbergB_operator hfac eps he0 he1 J L hL phys ph hs hn hps h2 hq0 hq1 hJ
  refine ⟨N, Ws, h1, hO.keeps (by omega), fun late  q sites oc hs' dflt above zeroNorm moveOc e0 maxIt hmax => ⟨fun hreg => ?_, fun cutoff minB maxB hcut hmin hreg => ?_⟩⟩
  · exact block_ground hO h2 hL hsm late (.inr rfl) hfac hs' dflt above zeroNorm moveOc e0 maxIt hmax hreg
  · exact block_cut hO h2 hL hsm late (.inr rfl) hfac eps cutoff he0 he1 hcut minB maxB hmin hs' dflt above zeroNorm moveOc e0 maxIt hmax hreg

/-- **C115.**  A matrix that commutes with the charge has a lowest energy for every charge some configuration has, and no normalised state of that
charge has an energy below it. -/
theorem C115_sector {ph : Dim G} {q : G} {L d : Nat} {H : Matrix (Fin L → Fin d) (Fin L → Fin d) ℝ} (hH : H.IsHermitian) (hk : KeepsCharge ph H)
    {σ : Fin L → Fin d} (hσ : totalCharge ph σ = q) :
    ∃ E, LowestIn ph q H E ∧ ∀ v, Normalised v → OfCharge ph q v → E ≤ expectation H v := by
  obtain ⟨E, hE⟩ := lowestIn_exists hH hk hσ
  refine ⟨E, hE, fun v hn hv => ?_⟩
  have := lowestIn_le hH hk hE v hv
  rw [(DM.normalised_iff _).1 hn, mul_one] at this
  exact this

end BN
end QuantiT
