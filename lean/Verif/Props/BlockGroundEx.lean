import Verif.Props.BlockGround
import Verif.Props.BlockCutEx
import Verif.Props.GroundEx
import Verif.Props.SectorEx
import Verif.Lemmas.TidyOne
/-
Cases that meet the hypotheses of C115.
-/
namespace QuantiT
namespace BN
open Spec BT MP HM Finset Matrix

section
variable {G 𝕜 : Type} [RCLike 𝕜] [AddCommGroup G] [LinearOrder G]

/-- The new two-site tensor has the outer dimensions of the sites it replaces and norm one. -/
theorem NewPair.rep {late : Bool} {Ws s0 s : List (BT G 𝕜)} {o : Nat} {t : BT G 𝕜} (hF : BlockFit s Ws s) (h0 : StartChain s0 s) (hpW : AllPositive Ws)
    (hc : Closed (s.map denseOf)) (hcW : Closed (Ws.map denseOf)) (hl : late = false ∨ chargeAt (leftDim Ws) 0 = 0 ∧ chargeAt (rightDim Ws) 0 = 0)
    (hr : Neutral Ws) (hH : HermitianOp (Ws.map denseOf) (phys (s.map denseOf))) (ho : o + 1 < s.length) (hcan : PairSemi (s.map denseOf) o)
    (hn : normSq (s.map denseOf) = 1) (hreg : DM.Regular (Ws.map denseOf) (s.map denseOf) o)
    (hsh : ∀ ψ ψ', BlockPair late Ws s0 s o ψ ψ' → Shared ψ ψ') (h : NewPair late Ws s0 s o t) :
    Conserving t.shape t.rule t.blocks ∧ (∃ A B, s[o]? = some A ∧ s[o + 1]? = some B ∧
      t.shape = [A.shape.getD 0 [], A.shape.getD 1 [], B.shape.getD 1 [], B.shape.getD 2 []]) ∧
      ∃ e, InRange e (t.shape.map dimSize) ∧ entry t.shape t.blocks e ≠ 0 := by
  obtain ⟨A, B, W1, W2, le, re, h2, ψ, E, θ, n, i, m, j, n', gA, gB, gW1, gW2, i1, i2, i3, hψ, t1, hA, hB, t2, t3, tS, u4, u5, u6, u7, hN, hsupp, hnew⟩ :=
    DM.update_full_semi (Ws.map denseOf) (s.map denseOf) o (fit_dense hF) hc hcW hH (by simpa using ho) hcan hn hreg
  obtain ⟨A0, B0, V1, V2, L, Rt, Le, Re, H2, q, le', re', h2', ψ', l, c, k, k', c', r, N, S⟩ :=
    update_setup late Ws s0 s (fun _ => Res.ub) o hF h0 hpW hc hcW hl hr ho
  rw [List.getElem?_map] at gA gB gW1 gW2
  rw [S.gA] at gA; cases gA
  rw [S.gB] at gB; cases gB
  rw [S.gW1] at gW1; cases gW1
  rw [S.gW2] at gW2; cases gW2
  rw [S.dl] at i1; cases i1
  rw [S.dr] at i2; cases i2
  rw [S.dh] at i3; cases i3
  rw [S.dq] at hψ; cases hψ
  obtain ⟨N5, fe, t', a1, a2, a3, a4, a5, a6⟩ := twoSitesUpdateB_ok S.fit (by
    intro M ψ' hψ'
    refine hsh q ψ' ⟨A0, B0, V1, V2, L, Rt, Le, Re, H2, max M N, S.gA, S.gB, S.gW1, S.gW2, fun fuel hf => ?_⟩
    obtain ⟨y1, y2, y3, y4, y5⟩ := S.runs fuel (by omega)
    exact ⟨y1, y2, y3, y4, y5, hψ' fuel (by omega)⟩) t1
  obtain ⟨X1, X2, X3, X4, X5, X6, X7, X8, X9, X10, X11, N6, z1, z2, z3, z4, z5⟩ := h
  rw [S.gA] at z1; cases z1
  rw [S.gB] at z2; cases z2
  rw [S.gW1] at z3; cases z3
  rw [S.gW2] at z4; cases z4
  obtain ⟨y1, y2, y3, y4, y5⟩ := S.runs (max N (max N5 N6)) (by omega)
  obtain ⟨w1, w2, w3, w4, w5, w6⟩ := z5 (max N (max N5 N6)) (by omega)
  rw [y1] at w1; cases w1
  rw [y2] at w2; cases w2
  rw [y3] at w3; cases w3
  rw [y4] at w4; cases w4
  rw [y5] at w5; cases w5
  rw [a1 _ (by omega)] at w6; cases w6
  have hsq : t.shape = [l, c, c', r] := by rw [a3, S.sq]
  refine ⟨a5.1.1, ⟨A0, B0, S.gA, S.gB, by rw [hsq, S.dA, S.dB]; rfl⟩, ?_⟩
  rw [denseOf_dims, S.dA] at hA
  rw [denseOf_dims, S.dB] at hB
  obtain ⟨rfl, rfl, rfl⟩ : dimSize l = n ∧ dimSize c = i ∧ dimSize k = m := by simpa using hA
  obtain ⟨-, rfl, rfl⟩ : dimSize k' = dimSize k ∧ dimSize c' = j ∧ dimSize r = n' := by simpa using hB
  have h1 := DM.norm_toV [dimSize l, dimSize c, dimSize c', dimSize r] θ
  rw [t3] at h1
  obtain ⟨e, he, hne⟩ := exists_ne_zero_of_sum_ne_zero (h1.symm.trans_ne (by norm_num))
  have hin : InRange e (t.shape.map dimSize) := by rw [hsq]; exact mem_configs.1 he
  refine ⟨e, hin, ?_⟩
  rw [← a5.f hin]
  intro h
  rw [h] at hne
  simp at hne
end

/-! ### Two spins without charges -/

abbrev spinPh : Dim Int := [(2, 0)]

/-- One spin up. -/
def spinUp : BT Int ℝ := ⟨[[(1, 0)], [(2, 0)], [(1, 0)]], 0, [([0, 0, 0], ⟨[1, 2, 1], fun o => if o.getD 1 0 = 0 then 1 else 0⟩)]⟩

abbrev spinS : List (BT Int ℝ) := [spinUp, spinUp]

theorem spinUp_sound : Sound spinUp := sound_of (by unfold Sorted; simp [spinUp]) (by
  intro kb h; simp only [spinUp, List.mem_cons, List.not_mem_nil, or_false] at h
  rcases h with rfl; exact ⟨_, rfl, by decide, rfl⟩) (by unfold spinUp; simp)

theorem spinChain : Chained 3 spinS := chained_two spinUp_sound spinUp_sound rfl rfl (.cons ⟨rfl, by decide⟩ .nil)

variable {Ws : List (BT Int ℝ)}

theorem BlockOperator.dense {L d : Nat} {ph : Dim Int} {p : Int} {H : Matrix (Fin L → Fin d) (Fin L → Fin d) ℝ} (h : BlockOperator L d ph p H Ws)
    (hd : dimSize ph = d) {s : List (BT Int ℝ)} (hF : BlockFit s Ws s) : DM.Operator L d H (Ws.map denseOf) := by
  refine ⟨by simpa using h.len, (fit_dense hF).op, h.closed, ?_, ?_, h.matrix, h.herm⟩
  · rw [List.map_map]
    refine List.eq_replicate_iff.2 ⟨by simpa using h.len, fun x hx => ?_⟩
    obtain ⟨W, hW, rfl⟩ := List.mem_map.1 hx
    simp only [Function.comp, denseOf_dims]
    rw [getD_dimSize, (h.outer W hW).2.2, ← hd]
    simp [flipped, dimSize, Function.comp_def]
  · rw [List.map_map]
    refine List.eq_replicate_iff.2 ⟨by simpa using h.len, fun x hx => ?_⟩
    obtain ⟨W, hW, rfl⟩ := List.mem_map.1 hx
    simp only [Function.comp, denseOf_dims]
    rw [getD_dimSize, (h.outer W hW).2.1, ← hd]

/-- A ground state of the two spins. -/
structure SpinGood (Ws s : List (BT Int ℝ)) : Prop where
  op : BlockOperator 2 2 spinPh 0 (heisenbergH 4 2) Ws
  fit : BlockFit s Ws s
  outer : SameOuter spinS s
  closed : Closed (s.map denseOf)
  norm : normSq (s.map denseOf) = 1
  ground : energy (Ws.map denseOf) (s.map denseOf) = -1

variable {s : List (BT Int ℝ)}

theorem SpinGood.phys (h : SpinGood Ws s) : phys (s.map denseOf) = [2, 2] := (SameOuter.phys_dense h.outer).trans rfl
theorem SpinGood.len (h : SpinGood Ws s) : s.length = 2 := (SameOuter.length_eq h.outer).trans rfl
theorem SpinGood.dense (h : SpinGood Ws s) : DM.Operator 2 2 (heisenbergH 4 2) (Ws.map denseOf) := h.op.dense rfl h.fit
theorem SpinGood.late (h : SpinGood Ws s) (late : Bool) : late = false ∨ chargeAt (leftDim Ws) 0 = 0 ∧ chargeAt (rightDim Ws) 0 = 0 :=
  .inr (by rw [h.op.ends.1, h.op.ends.2]; exact ⟨rfl, rfl⟩)
theorem SpinGood.herm (h : SpinGood Ws s) : HermitianOp (Ws.map denseOf) (Spec.phys (s.map denseOf)) := by
  rw [h.phys]
  exact DM.pair_herm' h.dense

theorem SpinGood.start (h : SpinGood Ws s) : StartChain spinS s :=
  ⟨by simp, spinChain, by
    intro t ht d hd
    simp only [List.mem_cons, List.not_mem_nil, or_false, or_self] at ht
    subst ht
    simp only [spinUp, List.mem_cons, List.not_mem_nil, or_false] at hd
    rcases hd with rfl | rfl | rfl <;> decide, h.outer.left.symm, h.outer.right.symm⟩

theorem SpinGood.regular (h : SpinGood Ws s) : DM.Regular (Ws.map denseOf) (s.map denseOf) 0 :=
  DM.pair_regular h.dense (fit_dense h.fit) h.closed h.phys h.norm (.inr h.ground)

theorem spin_keys {t : BT Int ℝ} (h : Sound t) (hs : t.shape = [[(1, 0)], [(2, 0)], [(2, 0)], [(1, 0)]])
    {k : List Nat} {v : Blk ℝ} (hk : (k, v) ∈ t.blocks) : k = [0, 0, 0, 0] := by
  obtain ⟨secs, h1, _, _⟩ := h.1.block k v hk
  rw [hs] at h1
  have key : ∀ (k : List Nat) (secs : List (Nat × Int)), sections [[(1, 0)], [(2, 0)], [(2, 0)], [(1, 0)]] k = some secs → k = [0, 0, 0, 0] := by
    intro k secs h1
    match k, h1 with
    | [a, b, c, d], h1 =>
      match a, b, c, d, h1 with
      | 0, 0, 0, 0, h1 => rfl
      | a + 1, b, c, d, h1 => simp [sections] at h1
      | 0, b + 1, c, d, h1 => simp [sections] at h1
      | 0, 0, c + 1, d, h1 => simp [sections] at h1
      | 0, 0, 0, d + 1, h1 => simp [sections] at h1
    | [], h1 => simp [sections] at h1
    | [_], h1 => simp [sections] at h1
    | [_, _], h1 => simp [sections] at h1
    | [_, _, _], h1 => simp [sections] at h1
    | _ :: _ :: _ :: _ :: _ :: _, h1 => simp [sections] at h1
  exact key k secs h1

theorem spin_locate (a b : Nat) (ha : a < 2) (hb : b < 2) :
    locateAll ([[(1, 0)], [(2, 0)], [(2, 0)], [(1, 0)]] : Shape Int) [0, a, b, 0] = some ([0, 0, 0, 0], [0, a, b, 0]) := by
  interval_cases a <;> interval_cases b <;> rfl

/-- The shape of two sites. -/
theorem SpinGood.shape (hs : SpinGood Ws s) {A B : BT Int ℝ} (gA : s[0]? = some A) (gB : s[0 + 1]? = some B) :
    [A.shape.getD 0 [], A.shape.getD 1 [], B.shape.getD 1 [], B.shape.getD 2 []] = [[(1, 0)], [(2, 0)], [(2, 0)], [(1, 0)]] := by
  have q1 := hs.outer.phys
  have q2 := hs.outer.left
  have q3 := hs.outer.right
  obtain ⟨A', B', rfl⟩ := List.length_eq_two.1 hs.len
  cases gA; cases gB
  simp only [List.map_cons, List.map_nil, List.cons.injEq, and_true] at q1
  rw [q1.1, q1.2, show A.shape.getD 0 [] = _ from q2, show B.shape.getD 2 [] = _ from q3]
  rfl

theorem SpinGood.shared (hs : SpinGood Ws s) (late : Bool) (ψ ψ' : BT Int ℝ) (h : BlockPair late Ws spinS s 0 ψ ψ') : Shared ψ ψ' := by
  obtain ⟨x, x', p1, p2, p3, p4, p5, A, B, gA, gB, p6, p7⟩ := BlockPair.rep hs.fit hs.start hs.op.positive hs.closed hs.op.closed (hs.late late)
    hs.op.neutral (by rw [hs.len]; omega) h
  obtain ⟨d, e, h1, hψd, hf⟩ := DM.two_site_entries (fit_dense hs.fit) hs.closed hs.op.closed (by simpa using hs.len) p1
  rw [hs.phys] at h1
  obtain ⟨rfl, rfl⟩ : 2 = d ∧ 2 = e := by simpa using h1
  obtain ⟨-, hr⟩ := DM.pair_residual hs.dense (fit_dense hs.fit) hs.closed hs.phys hs.norm p1
  rw [hs.ground, show ((3 : ℝ) - (-1)) * (1 + -1) = 0 by norm_num, sum_eq_zero_iff_of_nonneg (fun _ _ => by positivity)] at hr
  rw [hs.shape gA gB] at p7
  -- an entry that is not zero
  obtain ⟨a, b, ha, hb, hab⟩ : ∃ a b, a < 2 ∧ b < 2 ∧ amp (s.map denseOf) [a, b] 0 0 ≠ 0 := by
    by_contra hcon
    push Not at hcon
    have := DM.flip_norm hs.phys
    rw [hs.norm, hcon 0 0 (by omega) (by omega), hcon 0 1 (by omega) (by omega), hcon 1 0 (by omega) (by omega), hcon 1 1 (by omega) (by omega)] at this
    norm_num at this
  have hin : InRange [0, a, b, 0] (ψ.shape.map dimSize) := by
    rw [p7]
    unfold InRange
    simp only [List.map_cons, List.map_nil]
    exact .cons (by decide) (.cons ha (.cons hb (.cons (by decide) .nil)))
  have l1 : locateAll ψ.shape [0, a, b, 0] = some ([0, 0, 0, 0], [0, a, b, 0]) := by rw [p7]; exact spin_locate a b ha hb
  have hx : x.f [0, a, b, 0] ≠ 0 := by rw [(hf a b ha hb).1]; exact hab
  have hx' : x'.f [0, a, b, 0] ≠ 0 := by
    have := hr [0, a, b, 0] (by
      rw [hψd, mem_configs]
      exact .cons (by decide) (.cons ha (.cons hb (.cons (by decide) .nil))))
    have h0 : x'.f [0, a, b, 0] - (-1 : ℝ) * x.f [0, a, b, 0] = 0 := by simpa using this
    intro h
    rw [h] at h0
    apply hx
    linarith
  obtain ⟨v1, m1⟩ := stored_of_entry l1 (by rw [← p2.f hin]; exact hx)
  obtain ⟨v3, m3⟩ := stored_of_entry (t := ψ') (by rw [p4]; exact l1) (by rw [← p3.f (by rw [p4]; exact hin)]; exact hx')
  refine ⟨⟨_, v1, v3, m1, m3⟩, fun y hy => ?_⟩
  obtain ⟨k, v⟩ := y
  cases spin_keys p3.1 (p4.trans p7) hy
  exact ⟨_, m1, le_refl _⟩

theorem SpinGood.small (hs : SpinGood Ws s) {A : BT Int ℝ} (hA : s[0]? = some A) : A.shape.take 2 = [[(1, 0)], [(2, 0)]] := by
  have hF := hs.fit.ket
  have q1 := hs.outer.phys
  have q2 := hs.outer.left
  obtain ⟨A', B', rfl⟩ := List.length_eq_two.1 hs.len
  cases hA
  obtain ⟨l, c, r, hA⟩ : ∃ l c r, A.shape = [l, c, r] := List.length_eq_three.1 (hF.1 _ (by simp)).2
  simp only [List.map_cons, List.map_nil, List.cons.injEq, and_true] at q1
  have q1 := q1.1
  have q2 : A.shape.getD 0 [] = _ := q2
  rw [hA] at q1 q2 ⊢
  simp at q1 q2
  subst q1 q2
  rfl

theorem SpinGood.admissible (hs : SpinGood Ws s) (late : Bool) : Admissible late Ws spinS 0 s :=
  ⟨hs.regular, fun ψ ψ' h => hs.shared late ψ ψ' h, fun A hA => by rw [hs.small hA]; decide⟩

variable {fac : Blk ℝ → Blk ℝ × Blk ℝ × Blk ℝ}

theorem SpinGood.cut (hs : SpinGood Ws s) (hfac : DenseSvd fac) (eps cutoff : ℝ) (he0 : 0 < eps) (hcut : 0 ≤ cutoff) (minB maxB : Nat)
    (hmin : 1 ≤ minB) (late : Bool) : CutAdmissible late Ws spinS fac eps cutoff minB maxB 0 s := by
  refine ⟨hs.regular, fun ψ ψ' h => hs.shared late ψ ψ' h, fun t ht => ?_, fun A hA => by rw [hs.small hA]; decide, fun A hA => by rw [hs.small hA]; decide⟩
  obtain ⟨c1, ⟨A, B, gA, gB, c2⟩, e, c3, c4⟩ := NewPair.rep hs.fit hs.start hs.op.positive hs.closed hs.op.closed (hs.late late) hs.op.neutral hs.herm
    (by rw [hs.len]; omega) (hop_semi (by simpa using hs.len)) hs.norm hs.regular (fun ψ ψ' h => hs.shared late ψ ψ' h) ht
  rw [hs.shape gA gB] at c2
  rw [c2] at c3
  unfold InRange at c3
  obtain ⟨a, e1, ha, h1, rfl⟩ := List.forall₂_cons_right_iff.1 c3
  obtain ⟨b, e2, hb, h2, rfl⟩ := List.forall₂_cons_right_iff.1 h1
  exact tidy_of_noneEmptied (kept_one hfac t [[(1, 0)], [(2, 0)]] [[(2, 0)], [(1, 0)]] c2 (by simp) (by simp) c1 (by rw [c2]; decide) (by decide) eps cutoff
    he0 hcut minB maxB hmin (by decide) (x := [a, b]) (f := e2) (.cons ha (.cons hb .nil)) h2 c4)

theorem spin_run (hfac : DenseSvd fac) (late : Bool) : ∀ (l : List (Nat × Bool)) (s : List (BT Int ℝ)), (∀ p ∈ l, p.1 = 0) → SpinGood Ws s →
    DM.RunAll (bDmrg late Ws (fun t => svdSplit fac t 2) spinS) (Admissible late Ws spinS) l s
  | [], _, _, _ => trivial
  | (o, f) :: l, s, hl, hg => by
    have ho : o = 0 := hl (o, f) (by simp)
    subst ho
    have hA := hg.admissible late
    refine ⟨hA, fun r hr => ?_⟩
    obtain ⟨E, s', a1, a2, a3, a4, a5, a6, a7, a8, _⟩ := C81_update_partial late Ws spinS s fac hfac.sizes hfac.product hfac.ortho
      (fun _ _ _ _ _ _ _ _ _ => star_trivial _) 0 f hg.fit hg.start hg.op.positive hg.closed hg.op.closed (hg.late late) hg.op.neutral hg.herm
      (by rw [hg.len]; omega) (pair_canonical_two (by simpa using hg.len)) hg.norm hA.regular hA.shared hA.small
    rw [a1] at hr
    cases hr
    have hlo := DM.C73_bound (Ws.map denseOf) (s'.map denseOf) (-1) (by rw [SameOuter.phys_dense a3, hg.phys]; exact DM.pair_bound hg.dense) a6
    have hge := hg.ground
    exact spin_run hfac late l s' (fun p hp => hl p (by simp [hp])) ⟨hg.op, a2, SameOuter.trans hg.outer a3, a4, a6, by linarith⟩

theorem spin_cut_run (hfac : DenseSvd fac) (eps : ℝ) (he0 : 0 < eps) (he1 : eps ≤ 1 / 2) (late : Bool) :
    ∀ (l : List (Nat × Bool)) (s : List (BT Int ℝ)), (∀ p ∈ l, p.1 = 0) → SpinGood Ws s →
    DM.RunAll (cutDmrgB late Ws fac eps 0 1 3 spinS) (CutAdmissible late Ws spinS fac eps 0 1 3) l s
  | [], _, _, _ => trivial
  | (o, f) :: l, s, hl, hg => by
    have ho : o = 0 := hl (o, f) (by simp)
    subst ho
    have hA := hg.cut hfac eps 0 he0 le_rfl 1 3 le_rfl late
    refine ⟨hA, fun r hr => ?_⟩
    obtain ⟨E, s', v, w, a1, a2, a3, a4, a5, a6, a7, a8, a9, _, b1, b2⟩ := C97_update_partial late Ws spinS s hfac eps 0 he0 he1 le_rfl 1 3 (.inl le_rfl) 0 f
      hg.fit hg.start hg.op.positive hg.closed hg.op.closed (hg.late late) hg.op.neutral hg.herm (by rw [hg.len]; omega)
      (hop_semi (by simpa using hg.len)) hg.norm hA
    rw [a1] at hr
    cases hr
    rw [hg.phys] at a7 a8 b2
    have hlo := (DM.vec_bounds (Ws := Ws.map denseOf) a8.norm).1 _ (DM.pair_bound hg.dense)
    rw [← a7] at hlo
    have hused : usedBond (s'.map denseOf) 0 < 3 := by
      have hsm := @SpinGood.small _ _ hg
      have hn := a8.needed
      obtain ⟨A', B', rfl⟩ := List.length_eq_two.1 hg.len
      have := hn (denseOf A') (denseOf B') rfl rfl
      have h1 : ((denseOf A').dims.take 2).prod = 2 := by
        rw [denseOf_dims, ← List.map_take, hsm rfl]
        rfl
      omega
    have hw : w = 0 := le_antisymm (by have := a8.small hused; simpa using this) a8.lost.1
    have hen := b2 _ _ (DM.pair_bound hg.dense) (DM.pair_above hg.dense)
    rw [hw, Real.sqrt_zero, mul_zero] at hen
    have := abs_nonpos_iff.1 hen
    rw [hg.ground] at a9
    exact spin_cut_run hfac eps he0 he1 late l s' (fun p hp => hl p (by simp [hp])) ⟨hg.op, a2, SameOuter.trans hg.outer a3, a4, a6, by linarith⟩

theorem spinUp_amp (a b : Nat) (ha : a < 2) (hb : b < 2) : amp (spinS.map denseOf) [a, b] 0 0 = if a = 0 ∧ b = 0 then 1 else 0 := by
  have e1 : ∀ a, a < 2 → (denseOf spinUp).f [0, a, 0] = if a = 0 then 1 else 0 := by
    intro a ha
    interval_cases a <;> rfl
  have d1 : (denseOf spinUp).dims = [1, 2, 1] := rfl
  simp only [List.map_cons, List.map_nil, amp, d1, List.getD_cons_zero, List.getD_cons_succ, sum_range_succ, sum_range_zero]
  rw [e1 a ha, e1 b hb]
  interval_cases a <;> interval_cases b <;> simp

theorem spin_norm : normSq (spinS.map denseOf) = 1 := by
  have ha := spinUp_amp
  rw [DM.flip_norm rfl, ha 0 0 (by omega) (by omega), ha 0 1 (by omega) (by omega), ha 1 0 (by omega) (by omega), ha 1 1 (by omega) (by omega)]
  norm_num

theorem spin_start (hO : BlockOperator 2 2 spinPh 0 (heisenbergH 4 2) Ws) : SpinGood Ws spinS := by
  have hF := hO.fit spinChain rfl
  have hn : normSq (spinS.map denseOf) = 1 := by
    exact spin_norm
  refine ⟨hO, hF, SameOuter.refl _, ⟨rfl, rfl⟩, hn, ?_⟩
  have ha := spinUp_amp
  rw [DM.pair_energy (hO.dense rfl hF) rfl, hn, ha 0 0 (by omega) (by omega), ha 0 1 (by omega) (by omega), ha 1 0 (by omega) (by omega),
    ha 1 1 (by omega) (by omega)]
  norm_num

theorem spin_block : BlockStart 2 2 spinPh 0 0 spinS := by
  refine ⟨spinChain, ⟨rfl, rfl⟩, rfl, by omega, ⟨fun i A _ h => by omega, fun i A h hi => ?_⟩, ?_, ?_⟩
  · match i, hi with
    | 1, _ =>
      have h : denseOf spinUp = A := by simpa using h
      subst h
      intro a b ha hb
      change a < 1 at ha
      change b < 1 at hb
      interval_cases a
      interval_cases b
      have e2 : (denseOf spinUp).f [0, 0, 0] = 1 := rfl
      have e3 : (denseOf spinUp).f [0, 1, 0] = 0 := rfl
      show ∑ s ∈ range 2, ∑ j ∈ range 1, (denseOf spinUp).f [0, s, j] * star ((denseOf spinUp).f [0, s, j]) = _
      simp [sum_range_succ, e2, e3]
    | i + 2, _ => simp at h
  · refine (DM.normSq_eq (d := 2) rfl).1 ?_
    exact spin_norm
  · intro σ _
    have : ∀ i : Fin 2, chargeAt spinPh i.val = 0 := by decide
    simp only [totalCharge, this, sum_const_zero]

/-- The hypotheses of `C115_heisenberg_partial` are met, with any number of sweeps, with truncation and without. -/
example : ∃ (fac : Blk ℝ → Blk ℝ × Blk ℝ × Blk ℝ) (N : Nat) (Ws : List (BT Int ℝ)),
    (∀ fuel, N ≤ fuel → heisenbergB fuel fac (1 / 1000) 4 2 ⟨[spinPh], 0, []⟩ = some (.ok Ws)) ∧
    ∀ (late : Bool) (dflt : Res (BT Int ℝ)) (above : ℝ → ℝ → Bool) (zeroNorm : List (BT Int ℝ) → Bool)
      (moveOc : List (BT Int ℝ) → Nat → Nat → Res (List (BT Int ℝ) × Nat)) (maxIt : Nat), 1 ≤ maxIt →
      (∃ e fin log, DM.dmrg false (bDmrg late Ws (fun t => svdSplit fac t 2) spinS) dflt above zeroNorm moveOc 100000 maxIt 2 spinS 0
        = .ok (e, fin, 0, log) ∧ BlockGround 2 2 spinPh 0 (heisenbergH 4 2) spinS e fin log) ∧
      ∃ e fin log, DM.dmrg false (cutDmrgB late Ws fac (1 / 1000) 0 1 3 spinS) dflt above zeroNorm moveOc 100000 maxIt 2 spinS 0
        = .ok (e, fin, 0, log) ∧ BlockCut 2 2 spinPh 0 (heisenbergH 4 2) 0 3 e fin log := by
  obtain ⟨fac, hfac⟩ := LA.denseSvd_exists ℝ
  obtain ⟨N0, Ws0, h0, hO⟩ := heisenbergB_operator hfac (1 / 1000) (by norm_num) (by norm_num) 4 2 (by omega) ⟨[spinPh], 0, []⟩ spinPh rfl (by decide) (by decide)
    rfl rfl rfl (by norm_num)
  obtain ⟨N, Ws, h1, -, hall⟩ := C115_heisenberg_partial hfac (1 / 1000) (by norm_num) (by norm_num) 4 2 (by omega) (by norm_num) ⟨[spinPh], 0, []⟩ spinPh rfl
    (by decide) (by decide) rfl rfl rfl (by norm_num)
  obtain rfl : Ws = Ws0 := by
    have := (h1 (max N N0) (by omega)).symm.trans (h0 (max N N0) (by omega))
    simpa using this
  refine ⟨fac, N, Ws, h1, fun late dflt above zeroNorm moveOc maxIt hmax => ?_⟩
  obtain ⟨k1, k2⟩ := hall late 0 spinS 0 spin_block dflt above zeroNorm moveOc 100000 maxIt hmax
  have hg := spin_start hO
  exact ⟨k1 (spin_run hfac late _ _ (DM.tours_two_zero maxIt) hg), k2 0 1 3 le_rfl (.inl le_rfl)
    (spin_cut_run hfac (1 / 1000) (by norm_num) (by norm_num) late _ _ (DM.tours_two_zero maxIt) hg)⟩

/-! ### One electron on two sites -/

theorem hub_form (U mu : ℝ) : (hubbardH U mu 2 : Matrix (Fin 2 → Fin 4) (Fin 2 → Fin 4) ℝ) =
    onSite 0 (U • (cUp.transpose * cUp * (cDn.transpose * cDn)) - mu • (cUp.transpose * cUp + cDn.transpose * cDn)) +
    onSite 1 (U • (cUp.transpose * cUp * (cDn.transpose * cDn)) - mu • (cUp.transpose * cUp + cDn.transpose * cDn)) +
    (onPair 0 (cUp.transpose * phase) cUp + onPair 0 (phase * cUp) cUp.transpose + (onPair 0 (cDn.transpose * phase) cDn + onPair 0 (phase * cDn) cDn.transpose)) := by
  rw [DM.hubbardH_eq, show range 2 = {0, 1} from rfl, show range (2 - 1) = {0} from rfl, sum_singleton, sum_pair (by omega)]
  simp only [annihilate, toMat_F, toMat_ann, cMat]
  simp only [jw_transpose _ _ phase_tr, (jw_hop phase _ _ phase_sq 0).1, (jw_hop phase _ _ phase_sq 0).2]
  simp

/-- One up electron on two sites. -/
theorem hub_one (U mu : ℝ) : (hubbardH U mu 2 : Matrix (Fin 2 → Fin 4) (Fin 2 → Fin 4) ℝ) ![0, 1] ![0, 1] = -mu ∧
    (hubbardH U mu 2 : Matrix (Fin 2 → Fin 4) (Fin 2 → Fin 4) ℝ) ![0, 1] ![1, 0] = 1 ∧
    (hubbardH U mu 2 : Matrix (Fin 2 → Fin 4) (Fin 2 → Fin 4) ℝ) ![1, 0] ![0, 1] = 1 ∧
    (hubbardH U mu 2 : Matrix (Fin 2 → Fin 4) (Fin 2 → Fin 4) ℝ) ![1, 0] ![1, 0] = -mu := by
  rw [hub_form]
  refine ⟨?_, ?_, ?_, ?_⟩ <;>
  · simp only [Matrix.add_apply, onSite, onPair, tensorOp]
    simp [Fin.prod_univ_two, Matrix.mul_apply, Fin.sum_univ_four, cUp, cDn, phase, Matrix.one_apply]

abbrev hubPh : Dim Int := [(1, 0), (1, 1), (1, 3), (1, 4)]

/-- `(|0↑⟩ - |↑0⟩) / √2` -/
noncomputable def hubA : BT Int ℝ := ⟨[[(1, 0)], hubPh, [(1, 0), (1, -1)]], 0, [([0, 0, 0], coefR 3 √(1 / 2)), ([0, 1, 1], coefR 3 (-√(1 / 2)))]⟩
@[inherit_doc hubA]
def hubB : BT Int ℝ := ⟨[[(1, 0), (1, 1)], hubPh, [(1, -1)]], 0, [([0, 1, 0], coefR 3 1), ([1, 0, 0], coefR 3 1)]⟩

noncomputable abbrev hubS : List (BT Int ℝ) := [hubA, hubB]

theorem hubA_sound : Sound hubA := sound_of (by unfold Sorted; simp [hubA]; decide) (by
  intro kb h; simp only [hubA, List.mem_cons, List.not_mem_nil, or_false] at h
  rcases h with rfl | rfl <;> exact ⟨_, rfl, by decide, rfl⟩) (by unfold hubA; simp)
theorem hubB_sound : Sound hubB := sound_of (by unfold Sorted; simp [hubB]; decide) (by
  intro kb h; simp only [hubB, List.mem_cons, List.not_mem_nil, or_false] at h
  rcases h with rfl | rfl <;> exact ⟨_, rfl, by decide, rfl⟩) (by unfold hubB; simp)

theorem hubChain : Chained 3 hubS := chained_two hubA_sound hubB_sound rfl rfl (.cons ⟨rfl, by decide⟩ (.cons ⟨rfl, by decide⟩ .nil))

/-- A state of one up electron. -/
structure HubState (Ws s : List (BT Int ℝ)) : Prop where
  op : BlockOperator 2 4 hubPh 0 (hubbardH 4 2 2) Ws
  fit : BlockFit s Ws s
  outer : SameOuter hubS s
  closed : Closed (s.map denseOf)
  norm : normSq (s.map denseOf) = 1

theorem HubState.phys (h : HubState Ws s) : phys (s.map denseOf) = [4, 4] := (SameOuter.phys_dense h.outer).trans rfl
theorem HubState.len (h : HubState Ws s) : s.length = 2 := (SameOuter.length_eq h.outer).trans rfl
theorem HubState.late (h : HubState Ws s) (late : Bool) : late = false ∨ chargeAt (leftDim Ws) 0 = 0 ∧ chargeAt (rightDim Ws) 0 = 0 :=
  .inr (by rw [h.op.ends.1, h.op.ends.2]; exact ⟨rfl, rfl⟩)
theorem HubState.herm (h : HubState Ws s) : HermitianOp (Ws.map denseOf) (Spec.phys (s.map denseOf)) := by
  rw [h.phys]
  exact DM.hermitianOp_of h.op.matrix h.op.herm

theorem HubState.start (h : HubState Ws s) : StartChain hubS s :=
  ⟨by simp, hubChain, by
    intro t ht d hd
    simp only [List.mem_cons, List.not_mem_nil, or_false] at ht
    rcases ht with rfl | rfl
    · simp only [hubA, List.mem_cons, List.not_mem_nil, or_false] at hd
      rcases hd with rfl | rfl | rfl <;> decide
    · simp only [hubB, List.mem_cons, List.not_mem_nil, or_false] at hd
      rcases hd with rfl | rfl | rfl <;> decide, h.outer.left.symm, h.outer.right.symm⟩

theorem hub_pairs (a b : Nat) (ha : a < 4) (hb : b < 4) (h : chargeAt hubPh a + chargeAt hubPh b = 1) : (a = 0 ∧ b = 1) ∨ (a = 1 ∧ b = 0) := by
  interval_cases a <;> interval_cases b <;> first | exact .inl ⟨rfl, rfl⟩ | exact .inr ⟨rfl, rfl⟩ | exact absurd h (by decide)

theorem HubState.zero (h : HubState Ws s) (a b : Nat) (ha : a < 4) (hb : b < 4) (h1 : ¬(a = 0 ∧ b = 1)) (h2 : ¬(a = 1 ∧ b = 0)) :
    amp (s.map denseOf) [a, b] 0 0 = 0 := by
  by_contra hne
  have := amp_charge s (by intro e; have := h.len; rw [e] at this; cases this) h.fit.ket [a, b] 0 0 (by simp [h.len]) hne
  rw [h.outer.left, h.outer.right, h.outer.rule, h.outer.phys] at this
  have e : configCharge (hubS.map fun t => t.shape.getD 1 []) [a, b] = chargeAt hubPh a + chargeAt hubPh b := by
    simp [configCharge, hubA, hubB]
  rw [e] at this
  have e1 : chargeAt (leftDim hubS) 0 = 0 := rfl
  have e2 : chargeAt (rightDim hubS) 0 = -1 := rfl
  have e3 : (hubS.map BT.rule).sum = 0 := rfl
  rw [e1, e2, e3] at this
  rcases hub_pairs a b ha hb (by omega) with h | h
  · exact h1 h
  · exact h2 h

theorem hub_config {σ : List Nat} (h : σ ∈ configs [4, 4]) : ∃ a b, a < 4 ∧ b < 4 ∧ σ = [a, b] := by
  rw [mem_configs] at h
  unfold InRange at h
  obtain ⟨a, e1, ha, h1, rfl⟩ := List.forall₂_cons_right_iff.1 h
  obtain ⟨b, e2, hb, h2, rfl⟩ := List.forall₂_cons_right_iff.1 h1
  cases h2
  exact ⟨a, b, ha, hb, rfl⟩

theorem hub_sum (f : List Nat → ℝ) (h : ∀ a b, a < 4 → b < 4 → ¬(a = 0 ∧ b = 1) → ¬(a = 1 ∧ b = 0) → f [a, b] = 0) :
    ∑ σ ∈ configs [4, 4], f σ = f [0, 1] + f [1, 0] := by
  have hsub : ({[0, 1], [1, 0]} : Finset (List Nat)) ⊆ configs [4, 4] := by decide
  rw [← sum_subset hsub, sum_pair (by decide)]
  intro σ hσ hn
  obtain ⟨a, b, ha, hb, rfl⟩ := hub_config hσ
  refine h a b ha hb ?_ ?_
  · rintro ⟨rfl, rfl⟩; simp at hn
  · rintro ⟨rfl, rfl⟩; simp at hn

theorem HubState.entry (h : HubState Ws s) (a b c d : Nat) (ha : a < 4) (hb : b < 4) (hc : c < 4) (hd : d < 4) :
    opEntry (Ws.map denseOf) [a, b] [c, d] 0 0 = hubbardH 4 2 2 ![⟨a, ha⟩, ⟨b, hb⟩] ![⟨c, hc⟩, ⟨d, hd⟩] := by
  have h0 := DM.opEntry_ofFn (L := 2) (d := 4) (Ws.map denseOf) ![⟨a, ha⟩, ⟨b, hb⟩] ![⟨c, hc⟩, ⟨d, hd⟩]
  have e1 : (List.ofFn fun i => ((![⟨a, ha⟩, ⟨b, hb⟩] : Fin 2 → Fin 4) i).val) = [a, b] := by simp [List.ofFn_succ]
  have e2 : (List.ofFn fun i => ((![⟨c, hc⟩, ⟨d, hd⟩] : Fin 2 → Fin 4) i).val) = [c, d] := by simp [List.ofFn_succ]
  rw [e1, e2, h.op.matrix] at h0
  exact h0

/-- The Hamiltonian leaves the sector. -/
theorem HubState.out (h : HubState Ws s) (a b c d : Nat) (ha : a < 4) (hb : b < 4) (hc : c < 4) (hd : d < 4) (h1 : ¬(a = 0 ∧ b = 1)) (h2 : ¬(a = 1 ∧ b = 0))
    (h3 : (c = 0 ∧ d = 1) ∨ (c = 1 ∧ d = 0)) : opEntry (Ws.map denseOf) [a, b] [c, d] 0 0 = 0 := by
  rw [h.entry a b c d ha hb hc hd]
  by_contra hne
  have := h.op.keeps (by omega) _ _ hne
  simp only [totalCharge, Fin.sum_univ_two, Matrix.cons_val_zero, Matrix.cons_val_one] at this
  have e : chargeAt hubPh c + chargeAt hubPh d = 1 := by rcases h3 with ⟨rfl, rfl⟩ | ⟨rfl, rfl⟩ <;> decide
  rw [e] at this
  rcases hub_pairs a b ha hb this with h | h
  · exact h1 h
  · exact h2 h

theorem HubState.times (h : HubState Ws s) (a b : Nat) (ha : a < 4) (hb : b < 4) :
    ∑ σ ∈ configs [4, 4], amp (s.map denseOf) σ 0 0 * opEntry (Ws.map denseOf) [a, b] σ 0 0 =
      if a = 0 ∧ b = 1 then -2 * amp (s.map denseOf) [0, 1] 0 0 + amp (s.map denseOf) [1, 0] 0 0
      else if a = 1 ∧ b = 0 then amp (s.map denseOf) [0, 1] 0 0 - 2 * amp (s.map denseOf) [1, 0] 0 0 else 0 := by
  rw [hub_sum _ (fun c d hc hd h1 h2 => by rw [h.zero c d hc hd h1 h2, zero_mul])]
  obtain ⟨k1, k2, k3, k4⟩ := hub_one 4 2
  by_cases h1 : a = 0 ∧ b = 1
  · rw [if_pos h1]
    obtain ⟨rfl, rfl⟩ := h1
    rw [h.entry 0 1 0 1 (by omega) (by omega) (by omega) (by omega), h.entry 0 1 1 0 (by omega) (by omega) (by omega) (by omega)]
    refine (congrArg₂ (· + ·) (congrArg _ k1) (congrArg _ k2)).trans ?_
    ring
  · rw [if_neg h1]
    by_cases h2 : a = 1 ∧ b = 0
    · rw [if_pos h2]
      obtain ⟨rfl, rfl⟩ := h2
      rw [h.entry 1 0 0 1 (by omega) (by omega) (by omega) (by omega), h.entry 1 0 1 0 (by omega) (by omega) (by omega) (by omega)]
      refine (congrArg₂ (· + ·) (congrArg _ k3) (congrArg _ k4)).trans ?_
      ring
    · rw [if_neg h2, h.out a b 0 1 ha hb (by omega) (by omega) h1 h2 (.inl ⟨rfl, rfl⟩), h.out a b 1 0 ha hb (by omega) (by omega) h1 h2 (.inr ⟨rfl, rfl⟩)]
      ring

theorem HubState.square (h : HubState Ws s) : amp (s.map denseOf) [0, 1] 0 0 ^ 2 + amp (s.map denseOf) [1, 0] 0 0 ^ 2 = 1 := by
  have h1 := h.norm
  unfold normSq at h1
  rw [h.phys, hub_sum _ (fun a b ha hb h1 h2 => by rw [h.zero a b ha hb h1 h2]; simp)] at h1
  simpa using h1

theorem HubState.energy (h : HubState Ws s) : energy (Ws.map denseOf) (s.map denseOf) = -2 + 2 * amp (s.map denseOf) [0, 1] 0 0 * amp (s.map denseOf) [1, 0] 0 0 := by
  have hsq := h.square
  unfold Spec.energy sandwich
  rw [h.phys]
  simp only [star_trivial]
  rw [sum_comm]
  have : ∀ τ ∈ configs [4, 4], ∑ σ ∈ configs [4, 4], amp (s.map denseOf) σ 0 0 * opEntry (Ws.map denseOf) τ σ 0 0 * amp (s.map denseOf) τ 0 0 =
      (∑ σ ∈ configs [4, 4], amp (s.map denseOf) σ 0 0 * opEntry (Ws.map denseOf) τ σ 0 0) * amp (s.map denseOf) τ 0 0 := fun τ _ => by rw [sum_mul]
  rw [sum_congr rfl this, hub_sum _ (fun a b ha hb h1 h2 => by rw [h.zero a b ha hb h1 h2, mul_zero]), h.times 0 1 (by omega) (by omega),
    h.times 1 0 (by omega) (by omega)]
  simp
  linear_combination (-2) * hsq

/-- The electron is as often on either site, with opposite signs. -/
theorem HubState.anti (h : HubState Ws s) (he : Spec.energy (Ws.map denseOf) (s.map denseOf) = -3) :
    amp (s.map denseOf) [1, 0] 0 0 = -amp (s.map denseOf) [0, 1] 0 0 := by
  have h1 := h.square
  have h2 := h.energy
  rw [he] at h2
  have : (amp (s.map denseOf) [0, 1] 0 0 + amp (s.map denseOf) [1, 0] 0 0) ^ 2 = 0 := by linear_combination h1 - h2
  have := pow_eq_zero_iff (two_ne_zero) |>.1 this
  linarith

theorem HubState.regular (h : HubState Ws s) (he : Spec.energy (Ws.map denseOf) (s.map denseOf) = -3) : DM.Regular (Ws.map denseOf) (s.map denseOf) 0 := by
  intro ψ ψ' hp
  right
  obtain ⟨d, e, h1, hψd, hf⟩ := DM.two_site_entries (fit_dense h.fit) h.closed h.op.closed (by simpa using h.len) hp
  rw [h.phys] at h1
  obtain ⟨rfl, rfl⟩ : 4 = d ∧ 4 = e := by simpa using h1
  rw [he]
  refine ⟨by norm_num, fun o ho => ?_⟩
  rw [hψd, mem_configs] at ho
  unfold InRange at ho
  obtain ⟨x, e1, hx, h1, rfl⟩ := List.forall₂_cons_right_iff.1 ho
  obtain ⟨a, e2, ha, h2, rfl⟩ := List.forall₂_cons_right_iff.1 h1
  obtain ⟨b, e3, hb, h3, rfl⟩ := List.forall₂_cons_right_iff.1 h2
  obtain ⟨y, e4, hy, h4, rfl⟩ := List.forall₂_cons_right_iff.1 h3
  cases h4
  obtain rfl : x = 0 := by omega
  obtain rfl : y = 0 := by omega
  have hA := h.anti he
  rw [(hf a b ha hb).1, (hf a b ha hb).2, h.phys, h.times a b ha hb]
  by_cases h1 : a = 0 ∧ b = 1
  · rw [if_pos h1]
    obtain ⟨rfl, rfl⟩ := h1
    rw [hA]
    simp
    ring
  · rw [if_neg h1]
    by_cases h2 : a = 1 ∧ b = 0
    · rw [if_pos h2]
      obtain ⟨rfl, rfl⟩ := h2
      rw [hA]
      simp
      ring
    · rw [if_neg h2, h.zero a b ha hb h1 h2]
      simp

theorem hub_keys {t : BT Int ℝ} (h : Sound t) (hs : t.shape = [[(1, 0)], hubPh, hubPh, [(1, -1)]]) (hr : t.rule = 0)
    {k : List Nat} {v : Blk ℝ} (hk : (k, v) ∈ t.blocks) : k = [0, 0, 1, 0] ∨ k = [0, 1, 0, 0] := by
  obtain ⟨secs, h1, h2, _⟩ := h.1.block k v hk
  rw [hs] at h1
  rw [hr] at h2
  obtain ⟨a, b, c, d, rfl⟩ : ∃ a b c d, k = [a, b, c, d] := by
    have := (sections_length h1).1
    obtain ⟨a, k, rfl⟩ := List.exists_cons_of_length_eq_add_one (show k.length = 3 + 1 by simpa using this)
    obtain ⟨b, c, d, rfl⟩ := List.length_eq_three.1 (show k.length = 3 by simpa using this)
    exact ⟨a, b, c, d, rfl⟩
  obtain ⟨s1, r1, q1, q2, rfl⟩ := sections_cons.1 h1
  obtain ⟨s2, r2, q3, q4, rfl⟩ := sections_cons.1 q2
  obtain ⟨s3, r3, q5, q6, rfl⟩ := sections_cons.1 q4
  obtain ⟨s4, r4, q7, q8, rfl⟩ := sections_cons.1 q6
  cases q8
  obtain rfl : a = 0 := by simpa using (List.getElem?_eq_some_iff.1 q1).1
  obtain rfl : d = 0 := by simpa using (List.getElem?_eq_some_iff.1 q7).1
  have hb : b < 4 := by simpa using (List.getElem?_eq_some_iff.1 q3).1
  have hc : c < 4 := by simpa using (List.getElem?_eq_some_iff.1 q5).1
  cases q1; cases q7
  interval_cases b <;> interval_cases c <;> cases q3 <;> cases q5 <;> first | exact .inl rfl | exact .inr rfl | exact absurd h2 (by decide)

theorem HubState.shared (hs : HubState Ws s) (he : Spec.energy (Ws.map denseOf) (s.map denseOf) = -3) (late : Bool) (ψ ψ' : BT Int ℝ)
    (h : BlockPair late Ws hubS s 0 ψ ψ') : Shared ψ ψ' := by
  obtain ⟨x, x', p1, p2, p3, p4, p5, A, B, gA, gB, p6, p7⟩ := BlockPair.rep hs.fit hs.start hs.op.positive hs.closed hs.op.closed (hs.late late)
    hs.op.neutral (by rw [hs.len]; omega) h
  obtain ⟨d, e, h1, hψd, hf⟩ := DM.two_site_entries (fit_dense hs.fit) hs.closed hs.op.closed (by simpa using hs.len) p1
  rw [hs.phys] at h1
  obtain ⟨rfl, rfl⟩ : 4 = d ∧ 4 = e := by simpa using h1
  have f1 := hf 0 1 (by omega) (by omega)
  have f2 := hf 1 0 (by omega) (by omega)
  rw [hs.phys, hs.times 0 1 (by omega) (by omega), hs.anti he] at f1
  rw [hs.phys, hs.anti he] at f2
  have hL : amp (s.map denseOf) [0, 1] 0 0 ≠ 0 := by
    intro h0
    have := hs.square
    rw [hs.anti he, h0] at this
    norm_num at this
  have q1 := hs.outer.phys
  have q2 := hs.outer.left
  have q3 := hs.outer.right
  have q4 := hs.outer.rule
  obtain ⟨A', B', rfl⟩ := List.length_eq_two.1 hs.len
  cases gA; cases gB
  simp only [List.map_cons, List.map_nil, List.cons.injEq, and_true] at q1
  have hsh : ψ.shape = [[(1, 0)], hubPh, hubPh, [(1, -1)]] := by
    rw [p7, q1.1, q1.2, show A.shape.getD 0 [] = _ from q2, show B.shape.getD 2 [] = _ from q3]
    rfl
  have hru : ψ.rule = 0 := by
    rw [p6]
    simpa [hubA, hubB] using q4
  have hin : ∀ a b, a < 4 → b < 4 → InRange [0, a, b, 0] (ψ.shape.map dimSize) := by
    intro a b ha hb
    rw [hsh]
    unfold InRange
    simp only [List.map_cons, List.map_nil]
    exact .cons (by decide) (.cons ha (.cons hb (.cons (by decide) .nil)))
  have l1 : locateAll ψ.shape [0, 0, 1, 0] = some ([0, 0, 1, 0], [0, 0, 0, 0]) := by rw [hsh]; rfl
  have l2 : locateAll ψ.shape [0, 1, 0, 0] = some ([0, 1, 0, 0], [0, 0, 0, 0]) := by rw [hsh]; rfl
  obtain ⟨v1, m1⟩ := stored_of_entry l1 (by rw [← p2.f (hin 0 1 (by omega) (by omega)), f1.1]; exact hL)
  obtain ⟨v2, m2⟩ := stored_of_entry l2 (by rw [← p2.f (hin 1 0 (by omega) (by omega)), f2.1]; exact neg_ne_zero.2 hL)
  obtain ⟨v3, m3⟩ := stored_of_entry (t := ψ') (by rw [p4]; exact l1) (by
    rw [← p3.f (by rw [p4]; exact hin 0 1 (by omega) (by omega)), f1.2, if_pos ⟨rfl, rfl⟩]
    intro h0
    apply hL
    linarith)
  refine ⟨⟨_, v1, v3, m1, m3⟩, fun y hy => ?_⟩
  obtain ⟨k, v⟩ := y
  rcases hub_keys p3.1 (p4.trans hsh) (p5.trans hru) hy with rfl | rfl
  · exact ⟨_, m1, le_refl _⟩
  · exact ⟨_, m2, le_refl _⟩

theorem HubState.small (hs : HubState Ws s) {A : BT Int ℝ} (hA : s[0]? = some A) : A.shape.take 2 = [[(1, 0)], hubPh] := by
  have hF := hs.fit.ket
  have q1 := hs.outer.phys
  have q2 := hs.outer.left
  obtain ⟨A', B', rfl⟩ := List.length_eq_two.1 hs.len
  cases hA
  obtain ⟨l, c, r, hA⟩ : ∃ l c r, A.shape = [l, c, r] := List.length_eq_three.1 (hF.1 _ (by simp)).2
  simp only [List.map_cons, List.map_nil, List.cons.injEq, and_true] at q1
  have q1 := q1.1
  have q2 : A.shape.getD 0 [] = _ := q2
  rw [hA] at q1 q2 ⊢
  simp at q1 q2
  subst q1 q2
  rfl

theorem hub_run (hfac : DenseSvd fac) (late : Bool) : ∀ (l : List (Nat × Bool)) (s : List (BT Int ℝ)), (∀ p ∈ l, p.1 = 0) → HubState Ws s →
    energy (Ws.map denseOf) (s.map denseOf) = -3 → DM.RunAll (bDmrg late Ws (fun t => svdSplit fac t 2) hubS) (Admissible late Ws hubS) l s
  | [], _, _, _, _ => trivial
  | (o, f) :: l, s, hl, hg, he => by
    have ho : o = 0 := hl (o, f) (by simp)
    subst ho
    have hA : Admissible late Ws hubS 0 s := ⟨hg.regular he, fun ψ ψ' h => hg.shared he late ψ ψ' h, fun A hA => by rw [hg.small hA]; decide⟩
    refine ⟨hA, fun r hr => ?_⟩
    obtain ⟨E, s', a1, a2, a3, a4, a5, a6, a7, a8, _⟩ := C81_update_partial late Ws hubS s fac hfac.sizes hfac.product hfac.ortho
      (fun _ _ _ _ _ _ _ _ _ => star_trivial _) 0 f hg.fit hg.start hg.op.positive hg.closed hg.op.closed (hg.late late) hg.op.neutral hg.herm
      (by rw [hg.len]; omega) (pair_canonical_two (by simpa using hg.len)) hg.norm hA.regular hA.shared hA.small
    rw [a1] at hr
    cases hr
    have hs' : HubState Ws s' := ⟨hg.op, a2, SameOuter.trans hg.outer a3, a4, a6⟩
    have h1 := hs'.energy
    have h2 := hs'.square
    refine hub_run hfac late l s' (fun p hp => hl p (by simp [hp])) hs' (le_antisymm (by linarith) ?_)
    rw [h1]
    nlinarith [sq_nonneg (amp (s'.map denseOf) [0, 1] 0 0 + amp (s'.map denseOf) [1, 0] 0 0)]

theorem hubStart_amp : amp (hubS.map denseOf) [0, 1] 0 0 = √(1 / 2) ∧ amp (hubS.map denseOf) [1, 0] 0 0 = -√(1 / 2) := by
  have a1 : (denseOf hubA).f [0, 0, 0] = √(1 / 2) := rfl
  have a2 : (denseOf hubA).f [0, 0, 1] = 0 := rfl
  have a3 : (denseOf hubA).f [0, 1, 0] = 0 := rfl
  have a4 : (denseOf hubA).f [0, 1, 1] = -√(1 / 2) := rfl
  have b1 : (denseOf hubB).f [0, 1, 0] = 1 := rfl
  have b2 : (denseOf hubB).f [0, 0, 0] = 0 := rfl
  have b3 : (denseOf hubB).f [1, 0, 0] = 1 := rfl
  have b4 : (denseOf hubB).f [1, 1, 0] = 0 := rfl
  have d1 : (denseOf hubA).dims = [1, 4, 2] := rfl
  have d2 : (denseOf hubB).dims = [2, 4, 1] := rfl
  simp only [List.map_cons, List.map_nil, amp, d1, d2, List.getD_cons_zero, List.getD_cons_succ, sum_range_succ, sum_range_zero]
  rw [a1, a2, a3, a4, b1, b2, b3, b4]
  simp

theorem hubStart_zero (a b : Nat) (ha : a < 4) (hb : b < 4) (h1 : ¬(a = 0 ∧ b = 1)) (h2 : ¬(a = 1 ∧ b = 0)) : amp (hubS.map denseOf) [a, b] 0 0 = 0 := by
  by_contra hne
  have := amp_charge hubS (by simp) hubChain [a, b] 0 0 rfl hne
  have e : configCharge (hubS.map fun t => t.shape.getD 1 []) [a, b] = chargeAt hubPh a + chargeAt hubPh b := by
    simp [configCharge, hubA, hubB]
  have e1 : chargeAt (leftDim hubS) 0 = 0 := rfl
  have e2 : chargeAt (rightDim hubS) 0 = -1 := rfl
  have e3 : (hubS.map BT.rule).sum = 0 := rfl
  rw [e, e1, e2, e3] at this
  rcases hub_pairs a b ha hb (by omega) with h | h
  · exact h1 h
  · exact h2 h

theorem hubStart_norm : normSq (hubS.map denseOf) = 1 := by
  unfold normSq
  rw [show phys (hubS.map denseOf) = [4, 4] from rfl, hub_sum _ (fun a b ha hb h1 h2 => by rw [hubStart_zero a b ha hb h1 h2]; simp), hubStart_amp.1, hubStart_amp.2]
  simp
  norm_num

theorem hub_block : BlockStart 2 4 hubPh 1 0 hubS := by
  refine ⟨hubChain, ⟨rfl, rfl⟩, rfl, by omega, ⟨fun i A _ h => by omega, fun i A h hi => ?_⟩, (DM.normSq_eq (d := 4) rfl).1 hubStart_norm, ?_⟩
  · match i, hi with
    | 1, _ =>
      have h : denseOf hubB = A := by simpa using h
      subst h
      intro a b ha hb
      change a < 2 at ha
      change b < 2 at hb
      have e : ∀ k s, k < 2 → s < 4 → (denseOf hubB).f [k, s, 0] = if k + s = 1 then 1 else 0 := by
        intro k s hk hs
        interval_cases k <;> interval_cases s <;> rfl
      show ∑ s ∈ range 4, ∑ j ∈ range 1, (denseOf hubB).f [a, s, j] * star ((denseOf hubB).f [b, s, j]) = _
      simp only [sum_range_succ, sum_range_zero]
      rw [e a 0 ha (by omega), e a 1 ha (by omega), e a 2 ha (by omega), e a 3 ha (by omega), e b 0 hb (by omega), e b 1 hb (by omega), e b 2 hb (by omega),
        e b 3 hb (by omega)]
      interval_cases a <;> interval_cases b <;> simp
    | i + 2, _ => simp at h
  · intro σ hσ
    have e : (List.ofFn fun i => (σ i).val) = [(σ 0).val, (σ 1).val] := by simp [List.ofFn_succ]
    unfold stateVec at hσ
    rw [e] at hσ
    simp only [totalCharge, Fin.sum_univ_two]
    by_contra hne
    refine hσ (hubStart_zero _ _ (σ 0).isLt (σ 1).isLt ?_ ?_)
    · rintro ⟨h1, h2⟩; rw [h1, h2] at hne; exact hne rfl
    · rintro ⟨h1, h2⟩; rw [h1, h2] at hne; exact hne rfl

/-- The hypotheses of `C115_hubbard_partial` are met, with any number of sweeps: one up electron on two sites. -/
example : ∃ (fac : Blk ℝ → Blk ℝ × Blk ℝ × Blk ℝ) (N : Nat) (Ws : List (BT Int ℝ)),
    (∀ fuel, N ≤ fuel → hubbardB fuel fac (1 / 1000) 4 2 2 ⟨[hubPh], 0, []⟩ = some (.ok Ws)) ∧
    ∀ (late : Bool) (dflt : Res (BT Int ℝ)) (above : ℝ → ℝ → Bool) (zeroNorm : List (BT Int ℝ) → Bool)
      (moveOc : List (BT Int ℝ) → Nat → Nat → Res (List (BT Int ℝ) × Nat)) (maxIt : Nat), 1 ≤ maxIt →
      ∃ e fin log, DM.dmrg false (bDmrg late Ws (fun t => svdSplit fac t 2) hubS) dflt above zeroNorm moveOc 100000 maxIt 2 hubS 0
        = .ok (e, fin, 0, log) ∧ BlockGround 2 4 hubPh 1 (hubbardH 4 2 2) hubS e fin log ∧ e ≤ -3 := by
  obtain ⟨fac, hfac⟩ := LA.denseSvd_exists ℝ
  obtain ⟨N0, Ws0, h0, hO⟩ := hubbardB_operator hfac (1 / 1000) (by norm_num) (by norm_num) 4 2 2 (by omega) ⟨[hubPh], 0, []⟩ hubPh rfl (by decide) (by decide)
    rfl rfl rfl (.inr (by norm_num)) (.inl (by norm_num))
  obtain ⟨N, Ws, h1, -, hall⟩ := C115_hubbard_partial hfac (1 / 1000) (by norm_num) (by norm_num) 4 2 2 (by omega) (by norm_num) ⟨[hubPh], 0, []⟩ hubPh rfl
    (by decide) (by decide) rfl rfl rfl (.inr (by norm_num)) (.inl (by norm_num))
  obtain rfl : Ws = Ws0 := by
    have := (h1 (max N N0) (by omega)).symm.trans (h0 (max N N0) (by omega))
    simpa using this
  refine ⟨fac, N, Ws, h1, fun late dflt above zeroNorm moveOc maxIt hmax => ?_⟩
  obtain ⟨k1, -⟩ := hall late (.inr rfl) 1 hubS 0 hub_block dflt above zeroNorm moveOc 100000 maxIt hmax
  have hg : HubState Ws hubS := ⟨hO, hO.fit hubChain rfl, SameOuter.refl _, ⟨rfl, rfl⟩, hubStart_norm⟩
  have he : energy (Ws.map denseOf) (hubS.map denseOf) = -3 := by
    rw [hg.energy, hubStart_amp.1, hubStart_amp.2]
    have := Real.mul_self_sqrt (show (0 : ℝ) ≤ 1 / 2 by norm_num)
    linarith
  obtain ⟨e, fin, log, c1, c2⟩ := k1 (hub_run hfac late _ _ (DM.tours_two_zero maxIt) hg he)
  refine ⟨e, fin, log, c1, c2, ?_⟩
  have := c2.lower
  rw [← hO.matrix, ← DM.energy_eq rfl, he] at this
  exact this

end BN
end QuantiT
