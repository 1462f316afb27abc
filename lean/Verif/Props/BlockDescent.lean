import Verif.Props.BlockDmrg
import Verif.Lemmas.Descent2
/-
C82: energies of whole runs of the block DMRG.
-/
namespace QuantiT.BN
open Spec BT MP Finset
variable {G 𝕜 : Type} [RCLike 𝕜]

/-- The chains for which `C81_update_partial` speaks of the update at the pair `o`, `o + 1`. -/
structure Admissible [AddCommGroup G] [DecidableEq G] (late : Bool) (Ws s0 : List (BT G 𝕜)) (o : Nat) (s : List (BT G 𝕜)) : Prop where
  regular : DM.Regular (Ws.map denseOf) (s.map denseOf) o
  shared : ∀ ψ ψ', BlockPair late Ws s0 s o ψ ψ' → Shared ψ ψ'
  small : ∀ A, s[o]? = some A → ((A.shape.take 2).map List.length).prod < 2 ^ 63

/-- What a run keeps. -/
structure GoodB [AddCommGroup G] (Ws s0 s : List (BT G 𝕜)) (c : Nat) : Prop where
  fit : BlockFit s Ws s
  outer : SameOuter s0 s
  closed : Closed (s.map denseOf)
  canon : Canonical (s.map denseOf) c
  norm : normSq (s.map denseOf) = 1

omit [RCLike 𝕜] in
theorem SameOuter.refl [AddCommMonoid G] (s : List (BT G 𝕜)) : SameOuter s s := ⟨rfl, rfl, rfl, rfl⟩

theorem SameOuter.phys_dense [AddCommGroup G] {s s' : List (BT G 𝕜)} (h : SameOuter s s') : phys (s'.map denseOf) = phys (s.map denseOf) := by
  have key : ∀ t : List (BT G 𝕜), phys (t.map denseOf) = (t.map fun x => x.shape.getD 1 []).map dimSize := by
    intro t
    unfold Spec.phys
    rw [List.map_map, List.map_map]
    refine List.map_congr_left fun x _ => ?_
    simp only [Function.comp, denseOf_dims]
    rw [getD_dimSize]
  rw [key, key, h.phys]

omit [RCLike 𝕜] in
theorem SameOuter.length_eq [AddCommMonoid G] {s s' : List (BT G 𝕜)} (h : SameOuter s s') : s'.length = s.length := by
  have := congrArg List.length h.phys
  simpa using this

theorem startChain_self [AddCommGroup G] {s : List (BT G 𝕜)} (hch : Chained 3 s) (hne : s ≠ []) (hc : Closed (s.map denseOf))
    (hn : normSq (s.map denseOf) = 1) : StartChain s s := by
  refine ⟨hne, hch, fun t ht => ?_, rfl, rfl⟩
  obtain ⟨i, hi⟩ := List.mem_iff_getElem?.1 ht
  exact (pos_of_site hch (nonZero_of_normSq hc hn) hi).2

/-- **C82** (partial: no truncation, and every local update of the run must be one of those C81 speaks of).  A whole run of the block
DMRG, for every hermitian Hamiltonian that is a block chain leaving the charge unchanged, every block chain of two sites or
more that is normalised and canonical around its center, every limit on the number of sweeps and every convergence
criterion: it returns; the chain returned conserves the charge rules, with the same outer dimensions and total rule; it
has norm one; the energy returned is the expectation value of the Hamiltonian in the state returned, at most the energy of
the initial state and at least every lower bound of the spectrum; the energies given to the logger are those of the
states given with them and never increase.  The center is on the site reported or on the one after it (see C51). -/
theorem C82_descent_partial [AddCommGroup G] [LinearOrder G] (late : Bool) (Ws sites : List (BT G 𝕜))
    (fac : Blk 𝕜 → Blk 𝕜 × Blk 𝕜 × Blk 𝕜) (hfac : SvdSizes fac) (hprod : SvdProduct fac) (horth : SvdOrtho fac) (hreal : SvdReal fac)
    (hF : BlockFit sites Ws sites) (hpW : AllPositive Ws) (hc : Closed (sites.map denseOf)) (hcW : Closed (Ws.map denseOf))
    (hl : late = false ∨ chargeAt (leftDim Ws) 0 = 0 ∧ chargeAt (rightDim Ws) 0 = 0) (hr : Neutral Ws)
    (hH : HermitianOp (Ws.map denseOf) (phys (sites.map denseOf))) (h2 : 2 ≤ sites.length) (hsm : sites.length < 2 ^ 63)
    (oc : Nat) (ho : oc < sites.length) (hcan : Canonical (sites.map denseOf) oc) (hn : normSq (sites.map denseOf) = 1)
    (dflt : Res (BT G 𝕜)) (above : ℝ → ℝ → Bool) (zeroNorm : List (BT G 𝕜) → Bool)
    (moveOc : List (BT G 𝕜) → Nat → Nat → Res (List (BT G 𝕜) × Nat)) (e0 : ℝ) (maxIt : Nat) (hmax : 1 ≤ maxIt)
    (hreg : DM.RunAll (bDmrg late Ws (fun t => svdSplit fac t 2) sites) (Admissible late Ws sites)
      (DM.tours sites.length (startPair sites.length oc) maxIt) sites) :
    ∃ e fin log, DM.dmrg false (bDmrg late Ws (fun t => svdSplit fac t 2) sites) dflt above zeroNorm moveOc e0 maxIt sites.length sites oc
        = .ok (e, fin, startPair sites.length oc, log) ∧
      BlockFit fin Ws fin ∧ SameOuter sites fin ∧ normSq (fin.map denseOf) = 1 ∧
      e = energy (Ws.map denseOf) (fin.map denseOf) ∧ e ≤ energy (Ws.map denseOf) (sites.map denseOf) ∧
      (∀ lo, BoundedBelow (Ws.map denseOf) (phys (sites.map denseOf)) lo → lo ≤ e) ∧
      (Canonical (fin.map denseOf) (startPair sites.length oc) ∨ Canonical (fin.map denseOf) (startPair sites.length oc + 1)) ∧
      (∀ n x s, Event.iteration n x s ∈ log → x = energy (Ws.map denseOf) (s.map denseOf) ∧ normSq (s.map denseOf) = 1 ∧
        SameOuter sites s ∧ e ≤ x ∧ x ≤ energy (Ws.map denseOf) (sites.map denseOf) ∧ BlockFit s Ws s) ∧
      (∀ n x s x' s', Event.iteration n x s ∈ log → Event.iteration (n + 1) x' s' ∈ log → x' ≤ x) := by
  have hne : sites ≠ [] := by rintro rfl; simp at h2
  have hst := startChain_self hF.ket hne hc hn
  have hL : DM.Lowers (bDmrg late Ws (fun t => svdSplit fac t 2) sites) (Admissible late Ws sites) (GoodB Ws sites)
      (fun s => energy (Ws.map denseOf) (s.map denseOf)) sites.length := by
    intro s c o f hg hoc hin hP
    have hpc : PairCanonical (s.map denseOf) o :=
      ⟨fun i A h1 h2 => hg.canon.1 i A h1 (by omega), fun i A h1 h2 => hg.canon.2 i A h1 (by omega)⟩
    obtain ⟨E, s', a1, a2, a3, a4, a5, a6, a7, a8, _⟩ := C81_update_partial late Ws sites s fac hfac hprod horth hreal o f hg.fit
      ⟨hst.nonempty, hst.chained, hst.positive, hg.outer.left.symm, hg.outer.right.symm⟩ hpW hg.closed hcW hl hr
      (by rw [SameOuter.phys_dense hg.outer]; exact hH) (by rw [SameOuter.length_eq hg.outer]; exact hin) hpc hg.norm hP.regular hP.shared hP.small
    subst a7
    exact ⟨s', a1, ⟨a2, SameOuter.trans hg.outer a3, a4, a5, a6⟩, a8⟩
  obtain ⟨e, fin, log, b1, b2, b3, b4, b5, b6⟩ := DM.dmrg_lowers hL h2 hsm oc ho ⟨hF, SameOuter.refl _, hc, hcan, hn⟩ dflt above zeroNorm moveOc
    e0 maxIt hmax hreg
  obtain ⟨c, hg⟩ : ∃ c, GoodB Ws sites fin c := by
    rcases b2 with h | h
    · exact ⟨_, h⟩
    · exact ⟨_, h⟩
  refine ⟨e, fin, log, b1, hg.fit, hg.outer, hg.norm, b3, b4, fun lo hlo => ?_, ?_, fun n x s hm => ?_, b6⟩
  · rw [b3]
    exact DM.C73_bound _ _ lo (by rw [SameOuter.phys_dense hg.outer]; exact hlo) hg.norm
  · rcases b2 with h | h
    · exact .inl h.canon
    · exact .inr h.canon
  · obtain ⟨c1, ⟨c, c2⟩, c3, c4⟩ := b5 n x s hm
    exact ⟨c1, c2.norm, c2.outer, c3, c4, c2.fit⟩

end QuantiT.BN
