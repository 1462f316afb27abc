import Verif.Props.Stopping
import Verif.Props.BlockCutEx
import Verif.Props.GroundEx
/-
Runs that meet the hypotheses of C117.
-/
namespace QuantiT
open Spec MP HM

namespace DM

/-- A chain of two sites whose energy is 100000 for two updates and zero after that. -/
noncomputable def slowDmrg : Dmrg Nat Unit ℝ where
  upd _ _ _ _ a b := .ok (if a + 1 ≤ 2 then 100000 else 0, a + 1, b)
  lenv _ _ _ := ()
  renv _ _ _ := ()
  edgeL := ()
  edgeR := ()

theorem slow_lowers : Lowers slowDmrg (fun _ _ => True) (fun s _ => ∃ a b, s = [a, b]) (fun s => if s.getD 0 0 ≤ 2 then 100000 else 0) 2 := by
  rintro s c o f ⟨a, b, rfl⟩ hoc ho _
  obtain rfl : o = 0 := by omega
  refine ⟨[a + 1, b], rfl, ⟨_, _, rfl⟩, ?_⟩
  simp only [List.getD_cons_zero]
  split_ifs <;> first | omega | norm_num

/-- The case of `C117_first_fails` occurs: this run makes one sweep and returns 100000, though a second sweep would have returned zero. -/
example (maxIt : Nat) (hmax : 1 ≤ maxIt) : ∃ e fin log, dmrg false slowDmrg () (movedAbs 1) (fun _ => false) (fun s c _ => .ok (s, c)) energyBefore maxIt 2 [0, 0] 0
    = .ok (e, fin, 0, log) ∧ (energies log).length ≤ 1 ∧ slowDmrg.run (tour 2 0 ++ tour 2 0) (none, [0, 0]) = .ok (some 0, [4, 0]) := by
  obtain ⟨e, fin, log, h1, h2, h3, h4, h5, h6⟩ := dmrg_lowers (sites := [0, 0]) slow_lowers (by simp) (by simp) 0 (by simp) ⟨0, 0, rfl⟩ () (movedAbs 1)
    (fun _ => false) (fun s c _ => .ok (s, c)) energyBefore maxIt hmax (by
      generalize tours _ _ _ = l
      generalize [0, 0] = s
      induction l generalizing s with
      | nil => trivial
      | cons p l ih => exact ⟨trivial, fun r _ => ih r.2⟩)
  refine ⟨e, fin, log, h1, ?_, ?_⟩
  · refine C117_first_fails false slowDmrg () 1 (fun _ => false) (fun s c _ => .ok (s, c)) maxIt [0, 0] 0 (by simp) (by simp) (by simp) e fin _ log h1 fun x s hx => ?_
    obtain ⟨h, conv, s', last, hH, hlast, -, rfl, -⟩ := dmrg_ok false slowDmrg () (movedAbs 1) (fun _ => false) (fun s c _ => .ok (s, c)) energyBefore maxIt [0, 0] 0
      (by simp) (by simp) (by simp) e fin _ log h1
    unfold logOf at hx
    simp only [List.mem_append, List.mem_map, List.mem_singleton, reduceCtorEq, false_or, or_false, Event.iteration.injEq] at hx
    obtain ⟨⟨y, k⟩, hm, rfl, rfl, rfl⟩ := hx
    rw [List.mem_zipIdx_iff_getElem?, List.getElem?_drop] at hm
    have := hH.sweep 0 _ _ hH.start hm
    have h0 : slowDmrg.run (tour 2 0) (none, [0, 0]) = .ok (some 100000, [2, 0]) := by
      simp [tour, Dmrg.run, Dmrg.fresh, slowDmrg, Except.map]
    simp only [List.length_cons, List.length_nil] at this
    rw [show startPair (0 + 1 + 1) 0 = 0 from rfl, show 0 + 1 + 1 = 2 from rfl, h0] at this
    injection this with this
    have := congrArg Prod.fst this
    simp at this
    rw [← this]
    norm_num
  · simp [tour, Dmrg.run, Dmrg.fresh, slowDmrg, Except.map]

/-- A chain of two sites whose energy every update divides by two. -/
noncomputable def halfDmrg : Dmrg ℝ Unit ℝ where
  upd _ _ _ _ a b := .ok (a / 2, a / 2, b)
  lenv _ _ _ := ()
  renv _ _ _ := ()
  edgeL := ()
  edgeR := ()

theorem half_lowers : Lowers halfDmrg (fun _ _ => True) (fun s _ => ∃ a b, s = [a, b] ∧ 0 < a ∧ a ≤ 1) (fun s => s.getD 0 0) 2 := by
  rintro s c o f ⟨a, b, rfl, ha, ha'⟩ hoc ho _
  obtain rfl : o = 0 := by omega
  refine ⟨[a / 2, b], rfl, ⟨_, _, rfl, by linarith, by linarith⟩, ?_⟩
  simp only [List.getD_cons_zero]
  linarith

/-- The case of `C117_zero_fails` occurs: this run makes as many sweeps as it may. -/
example (maxIt : Nat) (hmax : 1 ≤ maxIt) : ∃ e fin log, dmrg false halfDmrg () (movedRel (fun _ => false) (1 / 100000)) (fun _ => false) (fun s c _ => .ok (s, c))
    energyBefore maxIt 2 [1, 0] 0 = .ok (e, fin, 0, log) ∧ (energies log).length = maxIt := by
  obtain ⟨e, fin, log, h1, h2, h3, h4, h5, h6⟩ := dmrg_lowers (sites := [1, 0]) half_lowers (by simp) (by simp) 0 (by simp) ⟨1, 0, rfl, by norm_num, by norm_num⟩ ()
    (movedRel (fun _ => false) (1 / 100000)) (fun _ => false) (fun s c _ => .ok (s, c)) energyBefore maxIt hmax (by
      generalize tours _ _ _ = l
      generalize [(1 : ℝ), 0] = s
      induction l generalizing s with
      | nil => trivial
      | cons p l ih => exact ⟨trivial, fun r _ => ih r.2⟩)
  refine ⟨e, fin, log, h1, C117_zero_fails false halfDmrg () (fun _ => false) (1 / 100000) (by norm_num) (fun _ => false) (fun s c _ => .ok (s, c)) maxIt [1, 0] 0
    (by simp) (by simp) (by simp) e fin _ log h1 (fun x hx => ?_) fun n x s x' s' hx hx' => ?_⟩
  · obtain ⟨n, s, hx⟩ := mem_energies.1 hx
    obtain ⟨c1, ⟨_, a, b, rfl, ha, ha'⟩, _⟩ := h5 n x s hx
    simp only [List.getD_cons_zero] at c1
    subst c1
    exact ⟨ha.ne', by rw [abs_of_pos ha]; linarith⟩
  · obtain ⟨c1, ⟨_, a, b, rfl, ha, ha'⟩, _⟩ := h5 n x s hx
    obtain ⟨h, conv, s0, last, hH, hlast, -, rfl, -⟩ := dmrg_ok false halfDmrg () (movedRel (fun _ => false) (1 / 100000)) (fun _ => false) (fun s c _ => .ok (s, c))
      energyBefore maxIt [1, 0] 0 (by simp) (by simp) (by simp) e fin _ log h1
    unfold logOf at hx hx'
    simp only [List.mem_append, List.mem_map, List.mem_singleton, reduceCtorEq, false_or, or_false, Event.iteration.injEq] at hx hx'
    obtain ⟨⟨y, k⟩, hm, rfl, rfl, e1⟩ := hx
    obtain ⟨⟨y', k'⟩, hm', rfl, rfl, rfl⟩ := hx'
    rw [List.mem_zipIdx_iff_getElem?, List.getElem?_drop] at hm hm'
    have := hH.sweep (1 + k) _ _ hm (by rw [Nat.add_assoc]; exact hm')
    simp only at e1 c1
    rw [e1] at this
    have h0 : halfDmrg.run (tour 2 0) (none, [a, b]) = .ok (some (a / 2 / 2), [a / 2 / 2, b]) := by
      simp [tour, Dmrg.run, Dmrg.fresh, halfDmrg, Except.map]
    simp only [List.length_cons, List.length_nil] at this
    rw [show startPair (0 + 1 + 1) 0 = 0 from rfl, show 0 + 1 + 1 = 2 from rfl, h0] at this
    injection this with this
    have := congrArg Prod.fst this
    simp at this c1
    rw [← this, c1, abs_of_pos ha, abs_of_pos (by linarith)]
    linarith

theorem flip_regularRun (svd : Blk ℝ → Blk ℝ × Blk ℝ × Blk ℝ)
    (hsvd : ∀ X l s t r, X.dims = [l, s, t, r] → ∃ k, SvdPair X (svd X).1 (svd X).2.1 (svd X).2.2 l s t r k) (maxIt : Nat) (hmax : 1 ≤ maxIt) :
    RegularRun (blkDmrg flipOp svd) flipOp (tours 2 0 maxIt) flipStart := by
  have hg := flipStart_good
  obtain ⟨s1, b1, b2, b3, b4, b5, b6⟩ := flip_first svd hsvd false
  obtain ⟨k, rfl⟩ : ∃ k, maxIt = k + 1 := ⟨maxIt - 1, by omega⟩
  rw [tours_succ]
  refine ⟨flip_regular hg.fit hg.closed rfl hg.norm (Or.inl flipStart_energy), fun r hr => ?_⟩
  rw [b1] at hr
  cases hr
  refine flip_run svd hsvd _ s1 (fun p hp => ?_) b2 b3 b4 b5 b6
  rcases List.mem_cons.1 hp with h | h
  · rw [h]
  · exact tours_two_zero k p h

/-- The hypotheses of `C117_dense_partial` are met: at most 12 sweeps with the criterion 1/10, and with room for 13 the energy settles. -/
example : ∃ svd svd1, ∀ maxIt, 1 ≤ maxIt → ∃ e fin oc log,
    dmrg true (blkDmrg flipOp svd) (.ok (onesLike [1, 1, 1])) (movedAbs (1 / 10)) tooSmall (moveOcDense star svd1) energyBefore maxIt 2 flipStart 0
      = .ok (e, fin, oc, log) ∧ (energies log).length ≤ 12 ∧
      (12 < maxIt → SettledAt (fun new old => |old - new| ≤ 1 / 10) energyBefore log e) := by
  obtain ⟨svd, hsvd⟩ := svdPair_exists ℝ
  obtain ⟨svd1, hsvd1⟩ := svdOk_exists ℝ
  refine ⟨svd, svd1, fun maxIt hmax => ?_⟩
  have hg := flipStart_good
  obtain ⟨e, fin, oc', log, c1, -, c2, c3⟩ := C117_dense_partial flipOp flipStart svd svd1 hsvd hsvd1 hg.fit hg.closed ⟨rfl, rfl⟩
    flip_herm (by simp [flipStart]) (by simp [flipStart]) 0 (by simp [flipStart]) hg.canon hg.norm (.ok (onesLike [1, 1, 1])) (1 / 10) (by norm_num)
    maxIt hmax (flip_regularRun svd hsvd maxIt hmax) (-1) flip_bound
  rw [flipStart_energy] at c2 c3
  norm_num at c2 c3
  refine ⟨e, fin, oc', log, c1, by exact_mod_cast c2, fun h => ?_⟩
  have := c3 (by exact_mod_cast h)
  norm_num
  exact this

/-- The hypotheses of `C117_dense_cut_partial` are met. -/
example : ∃ fac : Blk ℝ → Blk ℝ × Blk ℝ × Blk ℝ, ∀ maxIt, 1 ≤ maxIt → ∃ e fin oc log,
    dmrg true (cutDmrg flipOp fac (1 / 40) 1 3) (.ok (onesLike [1, 1, 1])) (movedAbs (1 / 10)) tooSmall (moveOcDense star (svdOf fac)) energyBefore maxIt 2
      flipStart 0 = .ok (e, fin, oc, log) ∧ (energies log).length ≤ 22 := by
  obtain ⟨fac, hfac⟩ := LA.denseSvd_exists ℝ
  refine ⟨fac, fun maxIt hmax => ?_⟩
  have hg := flipStart_good
  obtain ⟨hr1, hr2⟩ := flip_cut_run hfac (1 / 40) (by norm_num) 1 3 (.inl le_rfl) (tours 2 0 maxIt) flipStart (tours_two_zero maxIt) hg.fit hg.closed rfl
    hg.norm (.inl rfl)
  obtain ⟨e, fin, oc', log, c1, -, c2, -⟩ := C117_dense_cut_partial flipOp flipStart hfac (svdOk_dense hfac) (1 / 40) (by norm_num) 1 3 (.inl le_rfl) hg.fit hg.closed ⟨rfl, rfl⟩
    flip_herm (by simp [flipStart]) (by simp [flipStart]) 0 (by simp [flipStart]) hg.canon hg.norm (.ok (onesLike [1, 1, 1])) (1 / 10) (by norm_num)
    maxIt hmax (hr2 (by norm_num)) (-1) 1 flip_bound flip_above (by simp [flipStart, tour]; norm_num)
  norm_num at c2
  exact ⟨e, fin, oc', log, c1, by exact_mod_cast c2⟩

/-- The hypotheses of `C117_heisenberg_partial` are met: two spins with `J = 4`, started from one up and one down. -/
example : ∃ (Ws : List (Blk ℝ)) (svd : Blk ℝ → Blk ℝ × Blk ℝ × Blk ℝ) (svd1 : Blk ℝ → Nat → Blk ℝ × Blk ℝ × Blk ℝ),
    heisenberg (4 : ℝ) 2 = .ok Ws ∧ ∀ maxIt, 1 ≤ maxIt → ∃ e fin oc log,
      dmrg true (blkDmrg Ws svd) (.ok (onesLike [1, 1, 1])) (movedAbs (1 / 10)) tooSmall (moveOcDense star svd1) energyBefore maxIt 2
        pairStart 0 = .ok (e, fin, oc, log) ∧ (energies log).length ≤ 42 := by
  obtain ⟨svd, hsvd⟩ := svdPair_exists ℝ
  obtain ⟨svd1, hsvd1⟩ := svdOk_exists ℝ
  obtain ⟨Ws, h1, hO⟩ := heisenberg_operator (𝕜 := ℝ) 4 2 (by omega)
  obtain ⟨Ws', h1', hall⟩ := C117_heisenberg_partial (𝕜 := ℝ) 4 2 (by omega) (by norm_num)
  rw [h1] at h1'
  cases h1'
  refine ⟨Ws, svd, svd1, h1, fun maxIt hmax => ?_⟩
  have hs := pairStart_start
  have hF := hs.fit hO
  obtain ⟨s1, b1, b2, b3, b4, b5, b6⟩ := pair_first hO svd hsvd false
  have hreg : RegularRun (blkDmrg Ws svd) Ws (tours 2 0 maxIt) pairStart := by
    obtain ⟨k, rfl⟩ : ∃ k, maxIt = k + 1 := ⟨maxIt - 1, by omega⟩
    rw [tours_succ]
    refine ⟨pair_regular hO hF hs.closed rfl pairStart_norm (Or.inl (pairStart_energy hO)), fun r hr => ?_⟩
    rw [b1] at hr
    cases hr
    refine pair_run hO svd hsvd _ s1 (fun p hp => ?_) b2 b3 b4 b5 b6
    rcases List.mem_cons.1 hp with h | h
    · rw [h]
    · exact tours_two_zero k p h
  obtain ⟨e, fin, oc', log, c1, c2, -⟩ := hall svd svd1 hsvd hsvd1 pairStart 0 hs (.ok (onesLike [1, 1, 1])) (1 / 10) maxIt (by norm_num) hmax hreg
  norm_num at c2
  exact ⟨e, fin, oc', log, c1, by exact_mod_cast c2⟩
end DM

namespace BN
open BT

theorem hop_step (late : Bool) (fac : Blk ℝ → Blk ℝ × Blk ℝ × Blk ℝ) (hfac : SvdSizes fac) (hprod : SvdProduct fac) (horth : SvdOrtho fac)
    (hreal : SvdReal fac) (s : List (BT Int ℝ)) (f : Bool) (r : ℝ × List (BT Int ℝ))
    (hs : HopGood s ∧ (s = hopS ∨ energy (hopWs.map denseOf) (s.map denseOf) = -1))
    (hr : (bDmrg late hopWs (fun t => svdSplit fac t 2) hopS).fresh 0 f s = .ok r) :
    r.1 = -1 ∧ HopGood r.2 ∧ (r.2 = hopS ∨ energy (hopWs.map denseOf) (r.2.map denseOf) = -1) := by
  obtain ⟨hg, h | he⟩ := hs
  · subst h
    obtain ⟨s1, b1, b2, b3⟩ := hop_first late fac hfac hprod horth hreal f
    rw [b1] at hr
    cases hr
    exact ⟨rfl, b2, .inr b3⟩
  · have hA := hop_admissible hg late (.inr he)
    obtain ⟨E, s', a1, a2, a3, a4, a5, a6, a7, a8, _⟩ := C81_update_partial late hopWs hopS s fac hfac hprod horth hreal 0 f hg.fit
      hg.start hopPositive hg.closed hopClosedW (hopLate late) hopNeutral (by rw [hg.phys]; exact hop_herm) (by rw [hg.len]; omega)
      (pair_canonical_two (by simpa using hg.len)) hg.norm hA.regular hA.shared hA.small
    rw [a1] at hr
    cases hr
    have hlo := DM.C73_bound (hopWs.map denseOf) (s'.map denseOf) (-1) (by rw [SameOuter.phys_dense a3, hg.phys]; exact hop_bound) a6
    have h1 : energy (hopWs.map denseOf) (s'.map denseOf) = -1 := by linarith
    exact ⟨a7.trans h1, hop_ground a2 (SameOuter.trans hg.outer a3) a4 a6 h1, .inr h1⟩

/-- The hypotheses of `C117_block_partial` are met, and none of the energies is closer to zero than one. -/
example : ∃ fac : Blk ℝ → Blk ℝ × Blk ℝ × Blk ℝ, ∀ (late : Bool) (dflt : Res (BT Int ℝ)) (atZero : ℝ → Bool)
    (zeroNorm : List (BT Int ℝ) → Bool) (moveOc : List (BT Int ℝ) → Nat → Nat → Res (List (BT Int ℝ) × Nat)) (maxIt : Nat), 1 ≤ maxIt →
    ∃ e fin log, DM.dmrg false (bDmrg late hopWs (fun t => svdSplit fac t 2) hopS) dflt (DM.movedRel atZero (1 / 10)) zeroNorm moveOc DM.energyBefore maxIt 2 hopS 0
        = .ok (e, fin, 0, log) ∧ (∀ x ∈ energies log, 1 ≤ |x|) ∧ (energies log).length ≤ 21 ∧
      (22 < maxIt → SettledAt (fun new old => |new - old| ≤ 1 / 10 * |new|) DM.energyBefore log e) := by
  obtain ⟨fac, h1, h2, h3, h4⟩ := svdReal_exists
  refine ⟨fac, fun late dflt atZero zeroNorm moveOc maxIt hmax => ?_⟩
  have hg := hopStart
  obtain ⟨s1, b1, b2, b3⟩ := hop_first late fac h1 h2 h3 h4 false
  have hreg : DM.RunAll (bDmrg late hopWs (fun t => svdSplit fac t 2) hopS) (Admissible late hopWs hopS)
      (DM.tours 2 0 maxIt) hopS := by
    obtain ⟨k, rfl⟩ : ∃ k, maxIt = k + 1 := ⟨maxIt - 1, by omega⟩
    rw [DM.tours_succ]
    refine ⟨hop_admissible hg late (.inl hopStart_energy), fun r hr => ?_⟩
    rw [b1] at hr
    cases hr
    refine hop_run late fac h1 h2 h3 h4 _ s1 (fun p hp => ?_) b2 b3
    rcases List.mem_cons.1 hp with h | h
    · rw [h]
    · exact DM.tours_two_zero k p h
  obtain ⟨e, fin, log, c1, -, -, c2⟩ := C117_block_partial late hopWs hopS fac h1 h2 h3 h4 hg.fit hopPositive hg.closed hopClosedW
    (hopLate late) hopNeutral hop_herm (by simp) (by simp) 0 (by simp) hop_canonical hg.norm dflt atZero (1 / 10) (by norm_num) zeroNorm moveOc maxIt hmax hreg
    (-1) hop_bound
  have hone : ∀ x ∈ energies log, 1 ≤ |x| := by
    intro x hx
    rw [DM.energies_const (hop_step late fac h1 h2 h3 h4) false dflt _ zeroNorm moveOc _ maxIt hopS 0 (by simp) (by simp) (by simp) e fin _ log c1 ⟨hg, .inl rfl⟩
      (by simp [tour]) (by simp [tour]) x hx]
    norm_num
  obtain ⟨d1, d2⟩ := c2 1 one_pos hone
  rw [hopStart_energy] at d1 d2
  refine ⟨e, fin, log, c1, hone, ?_, fun h => d2 ?_⟩
  · have : ((energies log).length : ℝ) < 22 := d1.trans_lt (by norm_num)
    have : (energies log).length < 22 := by exact_mod_cast this
    omega
  · have : (22 : ℝ) < maxIt := by exact_mod_cast h
    refine lt_trans ?_ this
    norm_num

/-- The hypotheses of `C117_block_cut_partial` are met, and none of the energies is closer to zero than one. -/
example : ∃ fac : Blk ℝ → Blk ℝ × Blk ℝ × Blk ℝ, ∀ (late : Bool) (dflt : Res (BT Int ℝ)) (atZero : ℝ → Bool)
    (zeroNorm : List (BT Int ℝ) → Bool) (moveOc : List (BT Int ℝ) → Nat → Nat → Res (List (BT Int ℝ) × Nat)) (maxIt : Nat), 1 ≤ maxIt →
    ∃ e fin log, DM.dmrg false (cutDmrgB late hopWs fac (1/1000) (1/40) 1 3 hopS) dflt (DM.movedRel atZero (1 / 10)) zeroNorm moveOc DM.energyBefore maxIt 2 hopS 0
        = .ok (e, fin, 0, log) ∧ (∀ x ∈ energies log, 1 ≤ |x|) ∧ (energies log).length ≤ 22 := by
  obtain ⟨fac, hfac⟩ := LA.denseSvd_exists ℝ
  refine ⟨fac, fun late dflt atZero zeroNorm moveOc maxIt hmax => ?_⟩
  have hg := hopStart
  obtain ⟨hr1, hr2⟩ := hop_cut_run hfac (1/1000) (1/40) (by norm_num) (by norm_num) (by norm_num) 1 3 le_rfl late (DM.tours 2 0 maxIt) hopS
    (DM.tours_two_zero maxIt) hg (.inl rfl)
  obtain ⟨e, fin, log, c1, -, -, c2⟩ := C117_block_cut_partial late hopWs hopS hfac (1/1000) (1/40) (by norm_num) (by norm_num) (by norm_num) 1 3 (.inl le_rfl) hg.fit
    hopPositive hg.closed hopClosedW (hopLate late) hopNeutral hop_herm (by simp) (by simp) 0 (by simp) (DM.canonical_semi hop_canonical) hg.norm dflt atZero (1 / 10)
    (by norm_num) zeroNorm moveOc maxIt hmax (hr2 (by norm_num)) (-1) 1 hop_bound hop_above
  have hstep : ∀ s f r, (HopGood s ∧ (s = hopS ∨ energy (hopWs.map denseOf) (s.map denseOf) = -1)) →
      (cutDmrgB late hopWs fac (1/1000) (1/40) 1 3 hopS).fresh 0 f s = .ok r →
      r.1 = -1 ∧ HopGood r.2 ∧ (r.2 = hopS ∨ energy (hopWs.map denseOf) (r.2.map denseOf) = -1) := by
    rintro s f r ⟨h1, h2⟩ hr
    obtain ⟨_, s', a1, a2, a3, _⟩ := hop_cut hfac (1/1000) (1/40) (by norm_num) (by norm_num) (by norm_num) 1 3 le_rfl late f h1 h2
    rw [a1] at hr
    cases hr
    exact ⟨rfl, a2, .inr a3⟩
  have hone : ∀ x ∈ energies log, 1 ≤ |x| := by
    intro x hx
    rw [DM.energies_const hstep false dflt _ zeroNorm moveOc _ maxIt hopS 0 (by simp) (by simp) (by simp) e fin _ log c1 ⟨hg, .inl rfl⟩
      (by simp [tour]) (by simp [tour]) x hx]
    norm_num
  obtain ⟨d1, -⟩ := c2 1 one_pos (by simp [tour]; norm_num) hone
  norm_num at d1
  exact ⟨e, fin, log, c1, hone, by exact_mod_cast d1⟩
end BN
end QuantiT
