import Verif.Lemmas.Bmm2
import Verif.Lemmas.Squeeze
/-
C88, C89: batched products of matrices, removal of dimensions of one element.
-/
set_option linter.unusedSectionVars false
namespace QuantiT.BT
open QuantiT.Spec
variable {G R : Type}

/-! ### C89 -/

section
variable [AddCommGroup G] [DecidableEq G] [Zero R]

theorem unitPicks_set : ∀ {sh : Shape G} {i : Nat} {d : Dim G}, sh[i]? = some d → OneElement d →
    UnitPicks sh ((List.replicate sh.length (-1 : Int)).set i 0) ∧
    kept sh ((List.replicate sh.length (-1 : Int)).set i 0) = sh.eraseIdx i ∧
    fixedCharge sh ((List.replicate sh.length (-1 : Int)).set i 0) = (d.map Prod.snd).sum ∧
    ∀ e : List Nat, e.length + 1 = sh.length → insertFixed ((List.replicate sh.length (-1 : Int)).set i 0) e = e.insertIdx i 0
  | [], i, d, h, _ => by simp at h
  | x :: sh, 0, d, h, h1 => by
    simp only [List.getElem?_cons_zero, Option.some.injEq] at h
    subst h
    obtain ⟨q, rfl⟩ := oneElement_eq h1
    have hfree : ∀ sh : Shape G, UnitPicks sh (List.replicate sh.length (-1)) ∧ fixedCharge sh (List.replicate sh.length (-1)) = 0 := by
      intro sh
      induction sh with
      | nil => exact ⟨.nil, rfl⟩
      | cons d sh ih => exact ⟨.cons (.inl rfl) ih.1, by simp only [List.length_cons, List.replicate_succ, fixedCharge]; simp [ih.2]⟩
    have hins : ∀ (n : Nat) (e : List Nat), e.length = n → insertFixed (List.replicate n (-1)) e = e := by
      intro n
      induction n with
      | zero => intro e he; rw [List.length_eq_zero_iff] at he; subst he; rfl
      | succ n ih =>
        intro e he
        cases e with
        | nil => simp at he
        | cons x e => simp only [List.replicate_succ, insertFixed]; simp [ih e (by simpa using he)]
    refine ⟨.cons (.inr ⟨rfl, h1⟩) (hfree sh).1, ?_, ?_, ?_⟩
    · simp only [List.length_cons, List.replicate_succ, List.set_cons_zero, kept, List.eraseIdx_cons_zero]
      simp [kept_free]
    · simp only [List.length_cons, List.replicate_succ, List.set_cons_zero, fixedCharge]
      simp [(hfree sh).2, chargeAt, locate]
    · intro e he
      simp only [List.length_cons, List.replicate_succ, List.set_cons_zero, insertFixed]
      simp [hins _ e (by simpa using he)]
  | x :: sh, i + 1, d, h, h1 => by
    obtain ⟨i1, i2, i3, i4⟩ := unitPicks_set (sh := sh) (i := i) (d := d) (by simpa using h) h1
    refine ⟨.cons (.inl rfl) i1, ?_, ?_, ?_⟩
    · simp only [List.length_cons, List.replicate_succ, List.set_cons_succ, kept, List.eraseIdx_cons_succ]
      simp [i2]
    · simp only [List.length_cons, List.replicate_succ, List.set_cons_succ, fixedCharge]
      simp [i3]
    · intro e he
      have hi : i < sh.length := (List.getElem?_eq_some_iff.1 (show sh[i]? = some d by simpa using h)).1
      cases e with
      | nil => simp only [List.length_nil, List.length_cons] at he; omega
      | cons y e =>
        simp only [List.length_cons, List.replicate_succ, List.set_cons_succ, insertFixed]
        simp [i4 e (by simpa using he)]

/-- C89: `squeeze(i)` of a dimension with one element removes it, moves its charge out of the selection rule and keeps every
entry; of any other dimension it does nothing. -/
theorem C89_squeeze_dim (t : BT G R) (hc : Conserving t.shape t.rule t.blocks) (hp : Populated t.shape) (i : Nat) (d : Dim G)
    (hd : t.shape[i]? = some d) :
    (OneElement d → ∃ r, squeezeAt t i = .ok r ∧ r.shape = t.shape.eraseIdx i ∧ r.rule = t.rule - (d.map Prod.snd).sum ∧
      Conserving r.shape r.rule r.blocks ∧
      ∀ e, InRange e (r.shape.map dimSize) → entry r.shape r.blocks e = entry t.shape t.blocks (e.insertIdx i 0)) ∧
    (¬ OneElement d → squeezeAt t i = .ok t) := by
  constructor
  · intro h1
    obtain ⟨u1, u2, u3, u4⟩ := unitPicks_set hd h1
    obtain ⟨r, r1, r2, r3, r4, r5⟩ := C30_view_partial t hc hp _ u1.picks (u1.trailing hc)
    refine ⟨r, ?_, by rw [r2, u2], by rw [r3, u3], r4, ?_⟩
    · simp only [squeezeAt, hd]
      rw [if_pos (by simpa using (unitDim_iff (d := d)).2 h1)]
      exact r1
    · intro e he
      rw [r5 e he, u4]
      have := List.Forall₂.length_eq he
      rw [r2, u2, List.length_map, List.length_eraseIdx] at this
      have hi := (List.getElem?_eq_some_iff.1 hd).1
      rw [if_pos hi] at this
      omega
  · intro h1
    simp only [squeezeAt, hd]
    rw [if_neg (fun h => h1 ((unitDim_iff (d := d)).1 (by simpa using h)))]

/-- The dimensions of one element are fixed at their element, the others kept. -/
def onesFixed (sh : Shape G) : List Int := sh.map fun d => if OneElement d then 0 else -1

theorem onesFixed_unitPicks (sh : Shape G) : UnitPicks sh (onesFixed sh) := by
  unfold UnitPicks onesFixed
  induction sh with
  | nil => exact .nil
  | cons d sh ih =>
    rw [List.map_cons]
    refine .cons ?_ ih
    by_cases h : OneElement d <;> simp [h]

theorem onesFixed_kept (sh : Shape G) : kept sh (onesFixed sh) = sh.filter (fun d => decide (¬ OneElement d)) := by
  unfold onesFixed
  induction sh with
  | nil => rfl
  | cons d sh ih =>
    by_cases h : OneElement d
    · simp only [List.map_cons, kept, h, if_true]
      rw [List.filter_cons_of_neg (by simpa using h)]
      simpa using ih
    · simp only [List.map_cons, kept, h, if_false, if_true]
      rw [List.filter_cons_of_pos (by simpa using h), ih]

theorem onesFixed_charge (sh : Shape G) :
    fixedCharge sh (onesFixed sh) = ((sh.filter fun d => decide (OneElement d)).map fun d => (d.map Prod.snd).sum).sum := by
  unfold onesFixed
  induction sh with
  | nil => rfl
  | cons d sh ih =>
    by_cases h : OneElement d
    · rw [List.filter_cons_of_pos (by simpa using h)]
      obtain ⟨q, rfl⟩ := oneElement_eq h
      simp only [List.map_cons, fixedCharge, h, if_true, ih, List.sum_cons]
      simp [chargeAt, locate]
    · rw [List.filter_cons_of_neg (by simpa using h)]
      simp only [List.map_cons, fixedCharge, h, if_false, if_true, ih, zero_add]

/-- C89: `squeeze()` removes every dimension of one element and keeps every entry and the selection rule — when the charges of
these dimensions add up to nothing.  Otherwise it throws, see also `C89_squeeze_all_fails`. -/
theorem C89_squeeze_partial (t : BT G R) (hc : Conserving t.shape t.rule t.blocks) (hp : Populated t.shape) :
    (((t.shape.filter fun d => decide (OneElement d)).map fun d => (d.map Prod.snd).sum).sum = 0 →
      ∃ r, squeeze t = .ok r ∧ r.shape = t.shape.filter (fun d => decide (¬ OneElement d)) ∧ r.rule = t.rule ∧
        Conserving r.shape r.rule r.blocks ∧
        ∀ e, InRange e (r.shape.map dimSize) → entry r.shape r.blocks e =
          entry t.shape t.blocks (insertFixed (t.shape.map fun d => if OneElement d then 0 else -1) e)) ∧
    (((t.shape.filter fun d => decide (OneElement d)).map fun d => (d.map Prod.snd).sum).sum ≠ 0 →
      squeeze t = Res.throw .invalidArgument) := by
  have u := onesFixed_unitPicks t.shape
  have hpin := u.pinned
  have hdims : (t.shape.map fun d => if unitDim d then (0 : Int) else -1) = onesFixed t.shape := by
    unfold onesFixed
    apply List.map_congr_left
    intro d _
    by_cases h : OneElement d
    · rw [if_pos h, if_pos (by simpa using (unitDim_iff (d := d)).2 h)]
    · rw [if_neg h, if_neg (fun h' => h ((unitDim_iff (d := d)).1 (by simpa using h')))]
  have hsq : squeeze t = reshapeAs false t ⟨kept t.shape (onesFixed t.shape), t.rule - fixedCharge t.shape (onesFixed t.shape), []⟩ := by
    rw [squeeze, hdims, shapeFrom_eq u.picks hp]; rfl
  have hkp := kept_populated u.picks hp
  have hv := pinned_volumes u.picks
  have hq := pinned_charges u.picks hp
  rw [hpin.1] at hv hq
  have main := C26_reshape_as t ⟨kept t.shape (onesFixed t.shape), t.rule - fixedCharge t.shape (onesFixed t.shape), []⟩ hc hp hkp
  rw [← onesFixed_charge, hsq, ← onesFixed_kept]
  constructor
  · intro h0
    obtain ⟨r, r1, r2, r3, r4, r5⟩ := main.1 (SameVolumes.symm hv) (SameCharges.symm (hq.2 h0))
    refine ⟨r, r1, r2, r3, r4, ?_⟩
    intro e he
    rw [r2] at he
    have ha := pinned_aligned u.picks he
    rw [hpin.1, hpin.2] at ha
    exact r5 _ _ (Aligned.symm ha)
  · intro h0
    exact main.2 fun h => h0 (hq.1 (SameCharges.symm h.2))

end

/-- C89 fails for `squeeze()`: a vector of two elements with a dimension of one element that carries charge 1 cannot be
squeezed as a whole, although `squeeze(0)` does it. -/
theorem C89_squeeze_all_fails : ∃ t r : BT ℤ ℤ, Conserving t.shape t.rule t.blocks ∧ Populated t.shape ∧
    squeezeAt t 0 = .ok r ∧ r.shape = [[(2, 0)]] ∧ r.rule = 0 ∧ squeeze t = Res.throw .invalidArgument := by
  have hc : Conserving ([[(1, 1)], [(2, 0)]] : Shape ℤ) 1 [([0, 0], (⟨[1, 2], fun o => o.getD 1 0⟩ : Blk ℤ))] := by
    refine ⟨by unfold Sorted; decide, ?_⟩
    intro k b h
    simp only [List.mem_cons, Prod.mk.injEq, List.not_mem_nil, or_false] at h
    obtain ⟨rfl, rfl⟩ := h
    exact ⟨[(1, 1), (2, 0)], rfl, rfl, rfl⟩
  have hp : Populated ([[(1, 1)], [(2, 0)]] : Shape ℤ) := by unfold Populated; decide
  obtain ⟨r, r1, r2, r3, _⟩ := (C89_squeeze_dim (⟨[[(1, 1)], [(2, 0)]], 1, _⟩ : BT ℤ ℤ) hc hp 0 [(1, 1)] rfl).1 (by decide)
  exact ⟨_, r, hc, hp, r1, r2, by rw [r3]; decide, (C89_squeeze_partial _ hc hp).2 (by decide)⟩

/-- Non-vacuity of `C89_squeeze_partial`: dimensions of one element with opposite charges. -/
example : ∃ t r : BT ℤ ℤ, Conserving t.shape t.rule t.blocks ∧ t.blocks.length = 1 ∧ t.shape = [[(1, 1)], [(2, 0)], [(1, -1)]] ∧
    squeeze t = .ok r ∧ r.shape = [[(2, 0)]] ∧ entry r.shape r.blocks [1] = 7 := by
  have hc : Conserving ([[(1, 1)], [(2, 0)], [(1, -1)]] : Shape ℤ) 0 [([0, 0, 0], (⟨[1, 2, 1], fun o => 7 * o.getD 1 0⟩ : Blk ℤ))] := by
    refine ⟨by unfold Sorted; decide, ?_⟩
    intro k b h
    simp only [List.mem_cons, Prod.mk.injEq, List.not_mem_nil, or_false] at h
    obtain ⟨rfl, rfl⟩ := h
    exact ⟨[(1, 1), (2, 0), (1, -1)], rfl, rfl, rfl⟩
  obtain ⟨r, r1, r2, _, _, r5⟩ := (C89_squeeze_partial (⟨_, 0, _⟩ : BT ℤ ℤ) hc (by unfold Populated; decide)).1 (by decide)
  have r2' : r.shape = [[(2, 0)]] := by rw [r2]; decide
  refine ⟨_, r, hc, rfl, rfl, r1, r2', ?_⟩
  rw [r5 [1] (by rw [r2']; unfold InRange; decide)]
  decide

/-! ### C88 -/

section
variable [AddCommGroup G] [DecidableEq G] [Semiring R]

theorem bmmBatch_eq (a b : BT G R) (BA BB : Shape G) (ra ca rb cb : Dim G) (ha : a.shape = BA ++ [ra, ca]) (hb : b.shape = BB ++ [rb, cb])
    (hca : Conserving a.shape a.rule a.blocks) (hcb : Conserving b.shape b.rule b.blocks) (hna : NonEmpty a.shape) (hnb : NonEmpty b.shape)
    (hB : SameSizes BA BB) (hc : Contractible [ca] [rb]) :
    ∃ r, bmmBatch a b = .ok r ∧ r.shape = joinCharges BA BB ++ [ra, cb] ∧ r.rule = a.rule + b.rule ∧
      Conserving r.shape r.rule r.blocks ∧
      ∀ e i j, InRange e (BA.map dimSize) → i < dimSize ra → j < dimSize cb →
        entry r.shape r.blocks (e ++ [i, j]) = ((List.range (dimSize ca)).map fun k =>
          entry a.shape a.blocks (e ++ [i, k]) * entry b.shape b.blocks (e ++ [k, j])).sum := by
  have hshape := bmmShape_eq ha hb hB hna hnb
  have hne : ca ≠ [] := by
    rintro rfl
    exact absurd (hna [] (by rw [ha]; simp)) (by simp [dimSize])
  rw [ha] at hca
  rw [hb] at hcb
  obtain ⟨m, m1, m2, m3⟩ := bmmRows_result hca hcb hB hc
  refine ⟨⟨joinCharges BA BB ++ [ra, cb], a.rule + b.rule, m⟩, ?_, rfl, rfl, bmm_conserving hca hcb hB hc m2 m3, ?_⟩
  · simp only [bmmBatch]
    rw [ha, hb, bmmCheck_ok hB hc hne]
    simp only [bind, Except.bind, hshape]
    exact m1
  · intro e i j he hi hj
    rw [ha, hb]
    exact bmm_entry hca hcb hB hc m3 he hi hj

/-- The matrices that `bmm` gives one more dimension. -/
theorem expand_matrix (t : BT G R) (hc : Conserving t.shape t.rule t.blocks) (hn : NonEmpty t.shape) :
    ∃ r, (do let s ← shapeFromList [⟨[[(1, 0)]], 0, []⟩, t]; reshapeAs false t s) = .ok r ∧ r.shape = [(1, 0)] :: t.shape ∧
      r.rule = t.rule ∧ Conserving r.shape r.rule r.blocks ∧
      ∀ e, InRange e (t.shape.map dimSize) → entry r.shape r.blocks (0 :: e) = entry t.shape t.blocks e := by
  have hone : OneElement ([(1, 0)] : Dim G) := rfl
  obtain ⟨u1, u2, u3, u4⟩ := unitPicks_set (sh := ([(1, 0)] : Dim G) :: t.shape) (i := 0) rfl hone
  obtain ⟨r, r1, r2, r3, r4, r5⟩ := expand_eq t ⟨[(1, 0)] :: t.shape, 0 + t.rule, []⟩ hc u1 (by rw [u2]; rfl)
    (by
      intro d hd
      rcases List.mem_cons.1 hd with rfl | hd
      · simp
      · exact nonEmpty_populated hn d hd) (by rw [u3]; simp)
  refine ⟨r, ?_, r2, r3, r4, ?_⟩
  · simp only [shapeFromList, List.foldlM_cons, List.foldlM_nil, tensorProductShape_eq, bind, Except.bind, pure, Except.pure]
    exact r1
  · intro e he
    rw [← r5 e he, u4 e (by have := List.Forall₂.length_eq he; simpa using this)]
    simp

/-- C88: the product of two batches of matrices.  The batch dimensions have the same section sizes, the columns of the first
operand fit the rows of the second; the result has the batch dimensions with the charges of both, the rows of the first
operand and the columns of the second, the sum of the selection rules, and every matrix of the batch is the product. -/
theorem C88_bmm (a b : BT G R) (BA BB : Shape G) (ra ca rb cb : Dim G) (ha : a.shape = BA ++ [ra, ca]) (hb : b.shape = BB ++ [rb, cb])
    (hca : Conserving a.shape a.rule a.blocks) (hcb : Conserving b.shape b.rule b.blocks) (hna : NonEmpty a.shape) (hnb : NonEmpty b.shape)
    (hB : SameSizes BA BB) (hc : Contractible [ca] [rb]) :
    ∃ r, bmm a b = .ok r ∧ r.shape = joinCharges BA BB ++ [ra, cb] ∧ r.rule = a.rule + b.rule ∧
      Conserving r.shape r.rule r.blocks ∧
      ∀ e i j, InRange e (BA.map dimSize) → i < dimSize ra → j < dimSize cb →
        entry r.shape r.blocks (e ++ [i, j]) = ((List.range (dimSize ca)).map fun k =>
          entry a.shape a.blocks (e ++ [i, k]) * entry b.shape b.blocks (e ++ [k, j])).sum := by
  have hl := SameSizes.length_eq hB
  rw [bmm]
  by_cases h0 : BA = []
  · subst h0
    have hBB : BB = [] := by rw [← List.length_eq_zero_iff, ← hl]; rfl
    subst hBB
    simp only [List.nil_append] at ha hb
    rw [if_pos (by rw [ha, hb]; simp)]
    obtain ⟨a', a1, a2, a3, a4, a5⟩ := expand_matrix a hca hna
    obtain ⟨b', b1, b2, b3, b4, b5⟩ := expand_matrix b hcb hnb
    have hone : ∀ sh : Shape G, NonEmpty sh → NonEmpty ([(1, 0)] :: sh) := by
      intro sh h d hd
      rcases List.mem_cons.1 hd with rfl | hd
      · simp [dimSize]
      · exact h d hd
    obtain ⟨r, r1, r2, r3, r4, r5⟩ := bmmBatch_eq a' b' [[(1, 0)]] [[(1, 0)]] ra ca rb cb (by rw [a2, ha]; rfl) (by rw [b2, hb]; rfl) a4 b4
      (by rw [a2]; exact hone _ hna) (by rw [b2]; exact hone _ hnb) rfl hc
    have hd : r.shape[0]? = some [(1, (0 : G) + 0)] := by rw [r2]; rfl
    have hrp : Populated r.shape := by
      rw [r2]
      intro d hd
      simp only [joinCharges, List.zipWith_cons_cons, List.zipWith_nil_right, List.cons_append, List.nil_append, List.mem_cons, List.not_mem_nil, or_false] at hd
      rcases hd with rfl | rfl | rfl
      · simp
      · exact nonEmpty_populated hna _ (by rw [ha]; simp)
      · exact nonEmpty_populated hnb _ (by rw [hb]; simp)
    obtain ⟨q, q1, q2, q3, q4, q5⟩ := (C89_squeeze_dim r r4 hrp 0 _ hd).1 (by simp [OneElement])
    refine ⟨q, ?_, ?_, ?_, q4, ?_⟩
    · rw [← q1]
      simp only [bind, Except.bind] at a1 b1 ⊢
      revert a1 b1
      rcases shapeFromList [⟨[[(1, 0)]], 0, []⟩, a] with _ | sa
      · intro a1; cases a1
      · rcases shapeFromList [⟨[[(1, 0)]], 0, []⟩, b] with _ | sb
        · intro _ b1; cases b1
        · intro a1 b1
          dsimp only at a1 b1 ⊢
          rw [a1]
          dsimp only
          rw [b1]
          dsimp only
          rw [r1]
    · rw [q2, r2]; rfl
    · rw [q3, r3, a3, b3]; simp
    · intro e i j he hi hj
      cases he
      have hq2 : q.shape = [ra, cb] := by rw [q2, r2]; rfl
      rw [List.nil_append, q5 [i, j] (by rw [hq2]; exact .cons hi (.cons hj .nil))]
      refine (r5 [0] i j (.cons (by simp [dimSize]) .nil) hi hj).trans ?_
      apply sum_congr'
      intro k hk
      have hk' := List.mem_range.1 hk
      have hkr : k < dimSize rb := by rw [← Contractible.dimSize (by cases hc; assumption)]; exact hk'
      rw [List.nil_append, List.nil_append, ← a5 [i, k] (by rw [ha]; exact .cons hi (.cons hk' .nil)),
        ← b5 [k, j] (by rw [hb]; exact .cons hkr (.cons hj .nil))]
      rfl
  · rw [if_neg]
    · exact bmmBatch_eq a b BA BB ra ca rb cb ha hb hca hcb hna hnb hB hc
    · rintro ⟨h1, _⟩
      rw [ha] at h1
      simp at h1
      exact h0 h1

theorem bmmCheck_reject {BA BB : Shape G} {ra ca rb cb : Dim G} (hl : BA.length = BB.length) (hne : ca ≠ [])
    (h : ¬ (SameSizes BA BB ∧ Contractible [ca] [rb])) : bmmCheck (BA ++ [ra, ca]) (BB ++ [rb, cb]) = Res.throw .invalidArgument := by
  have t1 : (BA ++ [ra, ca]).take ((BA ++ [ra, ca]).length - 2) = BA := by simp
  have t2 : (BB ++ [rb, cb]).take ((BB ++ [rb, cb]).length - 2) = BB := by simp
  unfold bmmCheck
  rw [if_neg (by simp [hl]), if_neg (by simp), t1, t2]
  by_cases h1 : secCounts BA = secCounts BB
  · rw [if_neg (not_not.2 h1)]
    by_cases h2 : BA.flatten.map Prod.fst = BB.flatten.map Prod.fst
    · rw [if_neg (not_not.2 h2)]
      have hS : SameSizes BA BB := by
        unfold SameSizes
        rw [List.eq_iff_flatten_eq]
        refine ⟨by rw [← List.map_flatten, ← List.map_flatten, h2], ?_⟩
        simpa [secCounts, Function.comp_def] using h1
      have g1 : (BA ++ [ra, ca])[(BA ++ [ra, ca]).length - 1]? = some ca := by simp
      have g2 : (BB ++ [rb, cb])[(BA ++ [ra, ca]).length - 2]? = some rb := by simp [hl]
      simp only [g1, g2]
      split
      · rfl
      · rename_i h3
        split
        · rfl
        · rename_i h4
          rw [if_neg]
          intro h5
          refine h ⟨hS, .cons ?_ .nil⟩
          rw [List.forall₂_iff_get]
          rw [not_not] at h3 h4
          refine ⟨h3, ?_⟩
          intro i i1 i2
          constructor
          · have := congrArg (·[i]?) h4
            simpa [List.getElem?_map, List.getElem?_eq_getElem i1, List.getElem?_eq_getElem i2] using this
          · rw [List.all_eq_true] at h5
            have := h5 (ca[i], rb[i]) (by
              rw [List.mem_iff_getElem]
              exact ⟨i, by simp; omega, by simp⟩)
            simpa using this
    · rw [if_pos h2]
  · rw [if_pos h1]

/-- C88: operands of different rank, or of rank below two, are rejected. -/
theorem C88_reject_rank (a b : BT G R) (h : a.shape.length ≠ b.shape.length ∨ a.shape.length < 2) :
    bmm a b = Res.throw .invalidArgument := by
  rw [bmm, if_neg (by omega), bmmBatch]
  have : bmmCheck a.shape b.shape = Res.throw .invalidArgument := by
    unfold bmmCheck
    split
    · rfl
    · split
      · rfl
      · omega
  rw [this]; rfl

/-- C88: operands whose batch dimensions have different section sizes, or whose matrices do not fit section by section in
size and charge, are rejected. -/
theorem C88_reject (a b : BT G R) (BA BB : Shape G) (ra ca rb cb : Dim G) (ha : a.shape = BA ++ [ra, ca]) (hb : b.shape = BB ++ [rb, cb])
    (hca : Conserving a.shape a.rule a.blocks) (hcb : Conserving b.shape b.rule b.blocks) (hna : NonEmpty a.shape) (hnb : NonEmpty b.shape)
    (h : ¬ (SameSizes BA BB ∧ Contractible [ca] [rb])) : bmm a b = Res.throw .invalidArgument := by
  have hne : ca ≠ [] := by
    rintro rfl
    exact absurd (hna [] (by rw [ha]; simp)) (by simp [dimSize])
  by_cases hl : BA.length = BB.length
  · rw [bmm]
    split
    · rename_i h2
      have hA : BA = [] := by have := h2.1; rw [ha] at this; simpa using this
      have hBB : BB = [] := by have := h2.2; rw [hb] at this; simpa using this
      subst hA; subst hBB
      simp only [List.nil_append] at ha hb
      obtain ⟨a', a1, a2, _⟩ := expand_matrix a hca hna
      obtain ⟨b', b1, b2, _⟩ := expand_matrix b hcb hnb
      have hchk : bmmBatch a' b' = Res.throw .invalidArgument := by
        rw [bmmBatch, a2, b2, ha, hb]
        have := bmmCheck_reject (BA := [[(1, (0 : G))]]) (BB := [[(1, 0)]]) (ra := ra) (cb := cb) rfl hne (fun hh => h ⟨rfl, hh.2⟩)
        simp only [List.cons_append, List.nil_append] at this
        rw [this]; rfl
      simp only [bind, Except.bind] at a1 b1 ⊢
      revert a1 b1
      rcases shapeFromList [⟨[[(1, 0)]], 0, []⟩, a] with _ | sa
      · intro a1; cases a1
      · rcases shapeFromList [⟨[[(1, 0)]], 0, []⟩, b] with _ | sb
        · intro _ b1; cases b1
        · intro a1 b1
          dsimp only at a1 b1 ⊢
          rw [a1]
          dsimp only
          rw [b1]
          dsimp only
          rw [hchk]; rfl
    · rw [bmmBatch, ha, hb, bmmCheck_reject hl hne h]; rfl
  · exact C88_reject_rank a b (Or.inl (by rw [ha, hb]; simpa using hl))

end

/-- Two batches of matrices with a `U(1)` charge: the batch has two elements of charges 0 and 1, the matrices are 2 × 2. -/
def bmmA : BT ℤ ℤ := ⟨[[(1, 0), (1, 1)], [(1, 0), (1, -1)], [(1, 0), (1, 1)]], 0,
  [([0, 0, 0], ⟨[1, 1, 1], fun _ => 2⟩), ([0, 1, 1], ⟨[1, 1, 1], fun _ => 3⟩), ([1, 1, 0], ⟨[1, 1, 1], fun _ => 5⟩)]⟩

/-- The second operand of the example, with a batch that has no charge. -/
def bmmB : BT ℤ ℤ := ⟨[[(1, 0), (1, 0)], [(1, 0), (1, -1)], [(2, 0)]], 0,
  [([0, 0, 0], ⟨[1, 1, 2], fun o => 7 + o.getD 2 0⟩), ([1, 0, 0], ⟨[1, 1, 2], fun o => 11 + o.getD 2 0⟩)]⟩

theorem bmmA_conserving : Conserving bmmA.shape bmmA.rule bmmA.blocks := by
  refine ⟨by unfold Sorted; decide, ?_⟩
  intro k b h
  simp only [bmmA, List.mem_cons, Prod.mk.injEq, List.not_mem_nil, or_false] at h
  rcases h with ⟨rfl, rfl⟩ | ⟨rfl, rfl⟩ | ⟨rfl, rfl⟩
  · exact ⟨[(1, 0), (1, 0), (1, 0)], rfl, rfl, rfl⟩
  · exact ⟨[(1, 0), (1, -1), (1, 1)], rfl, rfl, rfl⟩
  · exact ⟨[(1, 1), (1, -1), (1, 0)], rfl, rfl, rfl⟩

theorem bmmB_conserving : Conserving bmmB.shape bmmB.rule bmmB.blocks := by
  refine ⟨by unfold Sorted; decide, ?_⟩
  intro k b h
  simp only [bmmB, List.mem_cons, Prod.mk.injEq, List.not_mem_nil, or_false] at h
  rcases h with ⟨rfl, rfl⟩ | ⟨rfl, rfl⟩
  · exact ⟨[(1, 0), (1, 0), (2, 0)], rfl, rfl, rfl⟩
  · exact ⟨[(1, 0), (1, 0), (2, 0)], rfl, rfl, rfl⟩

/-- Non-vacuity of `C88_bmm`. -/
example : ∃ r, bmm bmmA bmmB = .ok r ∧ r.shape = [[(1, 0), (1, 1)], [(1, 0), (1, -1)], [(2, 0)]] ∧ r.rule = 0 ∧
    entry r.shape r.blocks [0, 0, 1] = 16 ∧ entry r.shape r.blocks [1, 1, 0] = 55 ∧ entry r.shape r.blocks [0, 1, 0] = 0 := by
  obtain ⟨r, r1, r2, r3, _, r5⟩ := C88_bmm bmmA bmmB [[(1, 0), (1, 1)]] [[(1, 0), (1, 0)]] [(1, 0), (1, -1)] [(1, 0), (1, 1)]
    [(1, 0), (1, -1)] [(2, 0)] rfl rfl bmmA_conserving bmmB_conserving (by decide) (by decide) rfl (by unfold Contractible; decide)
  have r2' : r.shape = [[(1, 0), (1, 1)], [(1, 0), (1, -1)], [(2, 0)]] := r2
  refine ⟨r, r1, r2', r3, ?_, ?_, ?_⟩
  · rw [show [0, 0, 1] = [0] ++ [0, 1] from rfl, r5 [0] 0 1 (by unfold InRange; decide) (by decide) (by decide)]; decide
  · rw [show [1, 1, 0] = [1] ++ [1, 0] from rfl, r5 [1] 1 0 (by unfold InRange; decide) (by decide) (by decide)]; decide
  · rw [show [0, 1, 0] = [0] ++ [1, 0] from rfl, r5 [0] 1 0 (by unfold InRange; decide) (by decide) (by decide)]; decide

/-- Non-vacuity for two matrices, which take the detour over a third dimension. -/
example : ∃ (a b r : BT ℤ ℤ), a.shape = [[(1, 0), (1, -1)], [(2, 0)]] ∧ bmm a b = .ok r ∧ r.shape = [[(1, 0), (1, -1)], [(1, 3)]] ∧
    r.rule = 3 ∧ entry r.shape r.blocks [0, 0] = 11 := by
  have hca : Conserving ([[(1, 0), (1, -1)], [(2, 0)]] : Shape ℤ) 0 [([0, 0], (⟨[1, 2], fun o => 1 + o.getD 1 0⟩ : Blk ℤ))] := by
    refine ⟨by unfold Sorted; decide, ?_⟩
    intro k b h
    simp only [List.mem_cons, Prod.mk.injEq, List.not_mem_nil, or_false] at h
    obtain ⟨rfl, rfl⟩ := h
    exact ⟨[(1, 0), (2, 0)], rfl, rfl, rfl⟩
  have hcb : Conserving ([[(2, 0)], [(1, 3)]] : Shape ℤ) 3 [([0, 0], (⟨[2, 1], fun o => 3 + o.getD 0 0⟩ : Blk ℤ))] := by
    refine ⟨by unfold Sorted; decide, ?_⟩
    intro k b h
    simp only [List.mem_cons, Prod.mk.injEq, List.not_mem_nil, or_false] at h
    obtain ⟨rfl, rfl⟩ := h
    exact ⟨[(2, 0), (1, 3)], rfl, rfl, rfl⟩
  obtain ⟨r, r1, r2, r3, _, r5⟩ := C88_bmm (⟨[[(1, 0), (1, -1)], [(2, 0)]], 0, _⟩ : BT ℤ ℤ) ⟨[[(2, 0)], [(1, 3)]], 3, _⟩ [] [] _ _ _ _ rfl rfl
    hca hcb (by decide) (by decide) rfl (by unfold Contractible; decide)
  refine ⟨_, _, r, rfl, r1, r2, r3, ?_⟩
  refine (r5 [] 0 0 .nil (by decide) (by decide)).trans ?_
  decide

/-- Non-vacuity of `C88_reject`: the contracted charges do not cancel. -/
example : bmm bmmA (⟨[[(1, 0), (1, 0)], [(1, 0), (1, 1)], [(2, 0)]], 0, []⟩ : BT ℤ ℤ) = Res.throw .invalidArgument :=
  C88_reject bmmA _ [[(1, 0), (1, 1)]] [[(1, 0), (1, 0)]] [(1, 0), (1, -1)] [(1, 0), (1, 1)] [(1, 0), (1, 1)] [(2, 0)] rfl rfl
    bmmA_conserving ⟨List.Pairwise.nil, by simp⟩ (by decide) (by decide) (by unfold Contractible; decide)

/-- C88 fails for dimensions without elements: two batches of matrices that fit, with zero rows, are rejected. -/
theorem C88_empty_fails : ∃ a b : BT ℤ ℤ, Conserving a.shape a.rule a.blocks ∧ Conserving b.shape b.rule b.blocks ∧
    a.shape = [[(1, 0)], [(0, 0)], [(2, 0)]] ∧ b.shape = [[(1, 0)], [(2, 0)], [(1, 0)]] ∧ bmm a b = Res.throw .invalidArgument :=
  ⟨⟨[[(1, 0)], [(0, 0)], [(2, 0)]], 0, []⟩, ⟨[[(1, 0)], [(2, 0)], [(1, 0)]], 0, []⟩, ⟨List.Pairwise.nil, by simp⟩, ⟨List.Pairwise.nil, by simp⟩,
    rfl, rfl, rfl⟩

end QuantiT.BT
