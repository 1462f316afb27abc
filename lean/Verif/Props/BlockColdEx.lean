import Verif.Props.BlockCold
import Verif.Props.ColdEx
import Verif.Props.SectorEx
/-
Cases that meet the hypotheses of C116.
-/
namespace QuantiT.BN
open Spec BT MP Finset HM

/-- A chain with the outer dimensions of the example, of norm two. -/
def fix2A : BT Int ℝ := ⟨[[(1, 0)], [(1, 1)], [(1, 1)]], 2, [([0, 0, 0], ⟨[1, 1, 1], fun _ => 2⟩)]⟩
abbrev fix2S : List (BT Int ℝ) := [fix2A, fixB]

theorem fix2A_sound : Sound fix2A := sound_of (by unfold Sorted; simp [fix2A]) (by
  intro kb h; simp only [fix2A, List.mem_cons, List.not_mem_nil, or_false] at h
  rcases h with rfl; exact ⟨_, rfl, by decide, rfl⟩) (by unfold fix2A; simp)

theorem fix2Chain : Chained 3 fix2S := chained_two fix2A_sound fixB_sound rfl rfl (.cons ⟨rfl, by decide⟩ .nil)

theorem fix2Fit : BlockFit fix2S fixWs fix2S :=
  ⟨fix2Chain, fixFit.op, fix2Chain,
    .cons (.cons ⟨rfl, by decide⟩ .nil) (.cons (.cons ⟨rfl, by decide⟩ (.cons ⟨rfl, by decide⟩ .nil)) .nil),
    .cons rfl (.cons rfl .nil)⟩

theorem fix2_amp (b : Nat) (hb : b < 2) : amp (fix2S.map denseOf) [0, b] 0 0 = if b = 0 then 2 else 0 := by
  have e1 : (denseOf fix2A).f [0, 0, 0] = 2 := rfl
  have e2 : (denseOf fixB).f [0, 0, 0] = 1 := rfl
  have e3 : (denseOf fixB).f [0, 1, 0] = 0 := rfl
  have d1 : (denseOf fix2A).dims = [1, 1, 1] := rfl
  have d2 : (denseOf fixB).dims = [1, 2, 1] := rfl
  interval_cases b <;> simp [amp, d1, d2, e1, e2, e3]

theorem fix2Outer : SameOuter fixS fix2S := by
  constructor <;> rfl

theorem fix2Loose : FixLoose fix2S := ⟨fix2Fit, fix2Outer, ⟨rfl, rfl⟩, by rw [fix2_amp 0 (by omega)]; simp⟩

theorem fix2_positive : AllPositive fix2S := by
  intro t ht d hd
  simp only [List.mem_cons, List.not_mem_nil, or_false] at ht
  rcases ht with rfl | rfl
  · simp only [fix2A, List.mem_cons, List.not_mem_nil, or_false] at hd
    rcases hd with rfl | rfl | rfl <;> decide
  · simp only [fixB, List.mem_cons, List.not_mem_nil, or_false] at hd
    rcases hd with rfl | rfl | rfl <;> decide

theorem FixLoose.start2 {s : List (BT Int ℝ)} (h : FixLoose s) : StartChain fix2S s :=
  ⟨by simp, fix2Chain, fix2_positive, h.outer.left.symm, h.outer.right.symm⟩

theorem fix2_norm : normSq (fix2S.map denseOf) = 4 := by
  unfold normSq
  rw [show phys (fix2S.map denseOf) = [1, 2] from rfl, sum_one_two, fix2_amp 0 (by omega), fix2_amp 1 (by omega)]
  norm_num

/-- The chain is an eigenvector that is not normalised, of which the eigensolver finds a multiple. -/
theorem fix2_alive (E : ℝ) (θ : Blk ℝ) (h : DM.Found (fixWs.map denseOf) (fix2S.map denseOf) 0 E θ) : ∃ q ∈ configs θ.dims, θ.f q ≠ 0 := by
  obtain ⟨A, B, W1, W2, Le, Re, H2, ψ, ψ', E1, θ1, n, i, m, j, n', T, gA, gB, gW1, gW2, h1, h2, h3, hψ, hA, hB, hψd, hpt, k3, t1, t2, u1, _, huniq⟩ :=
    DM.cold_found (fixWs.map denseOf) (fix2S.map denseOf) 0 (fit_dense fix2Fit) fix2Loose.closed fix_conserving.closed (by simp)
  obtain ⟨rfl, rfl⟩ := huniq E θ h
  cases gA; cases gB
  obtain ⟨rfl, rfl, rfl, _⟩ : 1 = n ∧ 1 = i ∧ 1 = m ∧ True := by simpa using (show [1, 1, 1] = [n, i, m] from hA)
  obtain ⟨rfl, rfl, _⟩ : 2 = j ∧ 1 = n' ∧ True := by simpa using (show [1, 2, 1] = [1, j, n'] from hB)
  obtain ⟨d, e, q1, hd, hf⟩ := DM.two_site_entries (fit_dense fix2Fit) fix2Loose.closed fix_conserving.closed rfl hpt
  rw [fix2Loose.phys] at q1
  obtain ⟨rfl, rfl⟩ : 1 = d ∧ 2 = e := by simpa using q1
  have hcf : configs [1, 1, 2, 1] = {[0, 0, 0, 0], [0, 0, 1, 0]} := by decide
  have f0 := hf 0 0 (by omega) (by omega)
  have f1 := hf 0 1 (by omega) (by omega)
  rw [fix2Loose.phys, sum_one_two, fix_entry 0 0 (by omega) (by omega), fix_entry 0 1 (by omega) (by omega), fix2_amp 0 (by omega), fix2_amp 1 (by omega)] at f0
  rw [fix2Loose.phys, sum_one_two, fix_entry 1 0 (by omega) (by omega), fix_entry 1 1 (by omega) (by omega), fix2_amp 0 (by omega), fix2_amp 1 (by omega)] at f1
  have hTψ : T (DM.toV [1, 1, 2, 1] ψ) = (-1 : ℝ) • DM.toV [1, 1, 2, 1] ψ := by
    rw [← k3]
    ext q
    have hq : q.1 = [0, 0, 0, 0] ∨ q.1 = [0, 0, 1, 0] := by
      obtain ⟨q, hq⟩ := q
      rw [hcf] at hq
      simpa using hq
    show ψ'.f q.1 = -1 * ψ.f q.1
    rcases hq with hq | hq
    · rw [hq, f0.1, f0.2]; norm_num
    · rw [hq, f1.1, f1.2]; norm_num
  have hNψ : inner ℝ (DM.toV [1, 1, 2, 1] ψ) (DM.toV [1, 1, 2, 1] ψ) = 4 := by
    rw [DM.inner_toV, hcf, sum_insert (by decide), sum_singleton, f0.1, f1.1]
    norm_num
  obtain ⟨E', κ, v1, v2, _⟩ := DM.lanczos_stationary T _ (-1) 4 hTψ hNψ (by
    apply Real.le_sqrt_of_sq_le
    norm_num)
  rw [u1] at v1
  have v3 : DM.toV [1, 1, 2, 1] θ = κ • DM.toV [1, 1, 2, 1] ψ := (Prod.ext_iff.1 (Except.ok.inj v1)).2
  refine ⟨[0, 0, 0, 0], by rw [t2]; decide, ?_⟩
  have := congrArg (fun x : DM.Vec ℝ [1, 1, 2, 1] => x ⟨[0, 0, 0, 0], by decide⟩) v3
  have : θ.f [0, 0, 0, 0] = κ * ψ.f [0, 0, 0, 0] := this
  rw [this, f0.1]
  simp [v2]

variable {fac : Blk ℝ → Blk ℝ × Blk ℝ × Blk ℝ}

theorem fix2_ready (hfac : DenseSvd fac) (eps cutoff : ℝ) (he0 : 0 < eps) (hcut : 0 ≤ cutoff) (minB maxB : Nat) (hmin : 1 ≤ minB) (late : Bool)
    {s : List (BT Int ℝ)} (hs : s = fix2S ∨ FixGood s) : ReadyB late fixWs fix2S fac eps cutoff minB maxB 0 s := by
  have hL : FixLoose s := by
    rcases hs with rfl | h
    · exact fix2Loose
    · exact h.loose
  have halive : ∀ E θ, DM.Found (fixWs.map denseOf) (s.map denseOf) 0 E θ → ∃ q ∈ configs θ.dims, θ.f q ≠ 0 := by
    rcases hs with rfl | h
    · exact fix2_alive
    · exact fix_alive h
  refine ⟨fun _ hn => ?_, fun _ => halive, fun ψ ψ' h => fix_shared hL hL.start2 late ψ ψ' h,
    fun t ht => fix_pair hfac eps cutoff he0 hcut minB maxB hmin hL hL.start2 halive late t ht,
    fun A hA => by rw [fix_small hL hA]; decide, fun A hA => by rw [fix_small hL hA]; decide⟩
  rcases hs with rfl | h
  · rw [fix2_norm] at hn; norm_num at hn
  · exact fix_regular h

theorem fix2_run (hfac : DenseSvd fac) (eps cutoff : ℝ) (he0 : 0 < eps) (he1 : eps ≤ 1 / 2) (hcut : 0 ≤ cutoff) (minB maxB : Nat) (hmin : 1 ≤ minB)
    (late : Bool) : ∀ (l : List (Nat × Bool)) (s : List (BT Int ℝ)), (∀ p ∈ l, p.1 = 0) → (s = fix2S ∨ FixGood s) →
      DM.RunAll (cutDmrgB late fixWs fac eps cutoff minB maxB fix2S) (ReadyB late fixWs fix2S fac eps cutoff minB maxB) l s
  | [], _, _, _ => trivial
  | (o, f) :: l, s, hl, hg => by
    have ho : o = 0 := hl (o, f) (by simp)
    subst ho
    have hR := fix2_ready hfac eps cutoff he0 hcut minB maxB hmin late hg
    refine ⟨hR, fun r hr => ?_⟩
    have hL : FixLoose s := by
      rcases hg with rfl | h
      · exact fix2Loose
      · exact h.loose
    obtain ⟨x, s', a1, a2, a3⟩ := cold_stepsB late fixWs fix2S hfac eps cutoff he0 he1 hcut minB maxB hmin (by simp) fix2Chain fix2_positive
      fix_conserving.positive fix_conserving.closed (.inr fix_conserving.edges) fix_conserving.neutral fix_herm s 0 0 f
      ⟨hL.fit, ⟨hL.outer.phys, hL.outer.left, hL.outer.right, hL.outer.rule⟩, hL.closed, fun i A _ hi => by omega, fun i A B _ _ hi => by omega⟩
      (.inl rfl) (by simp) hR
    rw [a1] at hr
    cases hr
    have hG := a3.last rfl
    exact fix2_run hfac eps cutoff he0 he1 hcut minB maxB hmin late l s' (fun p hp => hl p (by simp [hp]))
      (.inr ⟨hG.fit, ⟨hG.outer.phys, hG.outer.left, hG.outer.right, hG.outer.rule⟩, hG.closed, hG.norm⟩)

/-- The hypotheses of `C116_run_partial` are met by a chain that is not normalised, with any number of sweeps, any cutoff and any limits of the bond. -/
example : ∃ fac : Blk ℝ → Blk ℝ × Blk ℝ × Blk ℝ, ∀ (late : Bool) (dflt : Res (BT Int ℝ)) (above : ℝ → ℝ → Bool) (zeroNorm : List (BT Int ℝ) → Bool)
    (moveOc : List (BT Int ℝ) → Nat → Nat → Res (List (BT Int ℝ) × Nat)) (maxIt : Nat), 1 ≤ maxIt → ∀ (cutoff : ℝ), 0 ≤ cutoff →
    ∀ minB maxB, 1 ≤ minB → normSq (fix2S.map denseOf) = 4 ∧ ∃ e fin log,
      DM.dmrg false (cutDmrgB late fixWs fac (1/1000) cutoff minB maxB fix2S) dflt above zeroNorm moveOc 100000 maxIt 2 fix2S 0 = .ok (e, fin, 0, log) ∧
      (∃ n, Event.iteration n e fin ∈ log) ∧ normSq (fin.map denseOf) = 1 := by
  obtain ⟨fac, hfac⟩ := LA.denseSvd_exists ℝ
  refine ⟨fac, fun late dflt above zeroNorm moveOc maxIt hmax cutoff hcut minB maxB hmin => ⟨fix2_norm, ?_⟩⟩
  have hr := fix2_run hfac (1/1000) cutoff (by norm_num) (by norm_num) hcut minB maxB hmin late (DM.tours 2 0 maxIt) fix2S (DM.tours_two_zero maxIt) (.inl rfl)
  obtain ⟨e, fin, log, c1, ⟨n, c2, _⟩, c3⟩ := C116_run_partial late fixWs fix2S hfac (1/1000) cutoff (by norm_num) (by norm_num) hcut minB maxB hmin fix2Fit
    fix2_positive fix_conserving.positive fix2Loose.closed fix_conserving.closed (.inr fix_conserving.edges) fix_conserving.neutral fix_herm (by simp) (by simp)
    dflt above zeroNorm moveOc 100000 maxIt hmax hr
  exact ⟨e, fin, log, c1, ⟨n, c2⟩, (c3 n e fin c2).2.2.1⟩

/-- The hypotheses of `C116_cold_partial` are met: the start from charge 2 draws its state, and the run returns. -/
example : ∃ fac : Blk ℝ → Blk ℝ × Blk ℝ × Blk ℝ, ∀ (late : Bool) (dflt : Res (BT Int ℝ)) (above : ℝ → ℝ → Bool) (zeroNorm : List (BT Int ℝ) → Bool)
    (moveOc : List (BT Int ℝ) → Nat → Nat → Res (List (BT Int ℝ) × Nat)) (maxIt : Nat), 1 ≤ maxIt → ∀ (cutoff : ℝ), 0 ≤ cutoff → ∀ maxB, ∃ e fin log,
      coldDmrg RM.zdist (fun _ _ => 0) (fun _ _ _ _ => 1) late fac (1/1000) cutoff 1 maxB dflt above zeroNorm moveOc 100000 maxIt fixWs 2 = .ok (e, fin, 0, log) ∧
      (∃ n, Event.iteration n e fin ∈ log) ∧ normSq (fin.map denseOf) = 1 ∧ ChargeSector (physDims fixWs) fin 2 := by
  obtain ⟨fac, hfac⟩ := LA.denseSvd_exists ℝ
  refine ⟨fac, fun late dflt above zeroNorm moveOc maxIt hmax cutoff hcut maxB => ?_⟩
  have hr := fix_run hfac (1/1000) cutoff (by norm_num) (by norm_num) hcut 1 maxB le_rfl late (DM.tours 2 0 maxIt) fixS (DM.tours_two_zero maxIt) fixStart
  have hr' : DM.RunAll (cutDmrgB late fixWs fac (1/1000) cutoff 1 maxB fixS)
      (fun o s => CutAdmissible late fixWs fixS fac (1/1000) cutoff 1 maxB o s ∧ (o = 0 → FixGood s)) (DM.tours 2 0 maxIt) fixS := by
    have key : ∀ (l : List (Nat × Bool)) (s : List (BT Int ℝ)), (∀ p ∈ l, p.1 = 0) → FixGood s →
        DM.RunAll (cutDmrgB late fixWs fac (1/1000) cutoff 1 maxB fixS)
          (fun o s => CutAdmissible late fixWs fixS fac (1/1000) cutoff 1 maxB o s ∧ (o = 0 → FixGood s)) l s := by
      intro l
      induction l with
      | nil => exact fun _ _ _ => trivial
      | cons p l ih =>
        obtain ⟨o, f⟩ := p
        intro s hl hg
        have ho : o = 0 := hl (o, f) (by simp)
        subst ho
        have hadm := fix_admissible hfac (1/1000) cutoff (by norm_num) hcut 1 maxB le_rfl hg late
        refine ⟨⟨hadm, fun _ => hg⟩, fun r hr => ?_⟩
        obtain ⟨E, s', v, w, a1, a2, a3, a4, a5, a6, _⟩ := C97_update_partial late fixWs fixS s hfac (1/1000) cutoff (by norm_num) (by norm_num) hcut 1 maxB (.inl le_rfl) 0 f
          hg.fit hg.start fix_conserving.positive hg.closed fix_conserving.closed (.inr fix_conserving.edges) fix_conserving.neutral
          (by rw [hg.phys]; exact fix_herm) (by rw [hg.len]; omega) (hop_semi (by simpa using hg.len)) hg.norm hadm
        rw [a1] at hr
        cases hr
        exact ih s' (fun p hp => hl p (by simp [hp])) ⟨a2, SameOuter.trans hg.outer a3, a4, a6⟩
    exact key _ _ (DM.tours_two_zero maxIt) fixStart
  obtain ⟨e, fin, log, c1, ⟨n, c2, _⟩, c3⟩ := C116_cold_partial RM.zdist RM.zdist_isDist (fun _ _ => 0) (fun _ _ _ _ => 1) late fixWs hfac (1/1000) cutoff
    (by norm_num) (by norm_num) hcut 1 maxB le_rfl (by norm_num) fixFit.op fix_conserving.dual fix_conserving.positive fix_conserving.closed
    (.inr fix_conserving.edges) fix_conserving.neutral fix_herm (by simp) (by simp) dflt above zeroNorm moveOc 100000 maxIt hmax 2 fix_random (by
      refine DM.RunAll.mono _ (fun o s h => ?_) _ _ hr'
      exact ⟨fun _ _ => h.1.regular, fun hn E θ hf => by
        by_cases ho : o = 0
        · subst ho
          exact fix_alive (h.2 rfl) E θ hf
        · exact absurd hf (by
            rintro ⟨A, B, W1, W2, _, _, _, _, _, _, _, g, _⟩
            rw [List.getElem?_eq_none (by simp; omega)] at g
            cases g), h.1.shared, h.1.tidy, h.1.few, h.1.small⟩)
  obtain ⟨_, _, k3, k4, _⟩ := c3 n e fin c2
  exact ⟨e, fin, log, c1, ⟨n, c2⟩, k4, k3⟩

end QuantiT.BN
