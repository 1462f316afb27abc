import Verif.Lemmas.Broadcast
import Verif.Props.BTensorOps
/-
C36: multiplication of two block tensors, with broadcasting.
-/
namespace QuantiT
namespace BT
open Spec
variable {G R : Type}

theorem good_of_fit {ls ss : Shape G} (h1 : List.Forall₂ FitDim ls ss) (h2 : List.Forall₂ NotWide ls ss)
    (hl : ∀ d ∈ ls, d ≠ []) (hs : ∀ d ∈ ss, d ≠ []) : List.Forall₂ GoodDim ls ss := by
  induction h1 with
  | nil => exact .nil
  | @cons l s ls ss h _ ih =>
    cases h2 with
    | cons h2 h2' =>
      refine .cons ?_ (ih h2' (fun d hd => hl d (by simp [hd])) (fun d hd => hs d (by simp [hd])))
      rcases h with h | h | h
      · exact Or.inl h
      · exact Or.inr (Or.inr ⟨h, hs s (by simp)⟩)
      · by_cases h1 : l.length = 1
        · left
          have := h2 h h1
          unfold OneElement at this h
          rw [this, h]
        · right; left
          have := List.length_pos_iff.2 (hl l (by simp))
          exact ⟨h, by omega⟩

theorem fitDim_symm {d d' : Dim G} (h : FitDim d d') : FitDim d' d := by
  rcases h with h | h | h
  · exact Or.inl h.symm
  · exact Or.inr (Or.inr h)
  · exact Or.inr (Or.inl h)

theorem bsize_comm {a b : Nat} (h : a = b ∨ a = 1 ∨ b = 1) : bsize a b = bsize b a := by
  unfold bsize; split_ifs <;> omega

theorem fit_sizes {d d' : Dim G} (h : FitDim d d') : dimSize d = dimSize d' ∨ dimSize d = 1 ∨ dimSize d' = 1 := by
  rcases h with h | h | h
  · exact Or.inl (dimSize_sizes h)
  · right; left; simp [dimSize, show d.map Prod.fst = [1] from h]
  · right; right; simp [dimSize, show d'.map Prod.fst = [1] from h]

/-- The result of a broadcasting operation, for dimensions that are handled right: the operation is applied where both tensors
store a block, and the other elements are zero. -/
theorem broadcastOp_held [AddCommMonoid G] [DecidableEq G] [Zero R] (op : R → R → R)
    (a b : BT G R) (ha : Conserving a.shape a.rule a.blocks) (hb : Conserving b.shape b.rule b.blocks)
    (hg : if b.shape.length ≤ a.shape.length then
        List.Forall₂ GoodDim (a.shape.drop (a.shape.length - b.shape.length)) b.shape
      else List.Forall₂ GoodDim (b.shape.drop (b.shape.length - a.shape.length)) a.shape)
    (hf : Fits a.shape b.shape) :
    ∃ r, broadcastOp op a b = .ok r ∧ r.rule = a.rule + b.rule ∧ Conserving r.shape r.rule r.blocks ∧
      r.shape.map dimSize = bsizes (a.shape.map dimSize) (b.shape.map dimSize) ∧
      ∀ e, InRange e (r.shape.map dimSize) →
        (Held a.shape a.blocks (clip (a.shape.map dimSize) e) → Held b.shape b.blocks (clip (b.shape.map dimSize) e) →
          entry r.shape r.blocks e =
            op (entry a.shape a.blocks (clip (a.shape.map dimSize) e)) (entry b.shape b.blocks (clip (b.shape.map dimSize) e))) ∧
        (¬ (Held a.shape a.blocks (clip (a.shape.map dimSize) e) ∧ Held b.shape b.blocks (clip (b.shape.map dimSize) e)) →
          entry r.shape r.blocks e = 0) := by
  by_cases hle : b.shape.length ≤ a.shape.length
  · rw [if_pos hle] at hg
    obtain ⟨r, r1, r2, r3⟩ := shapes_good hg
    obtain ⟨bl, b1, b2, b3⟩ := broadcast_held op ha hb (List.take_append_drop (a.shape.length - b.shape.length) a.shape).symm r3
      (b.blocks.flatMap fun o => a.blocks.map fun t => (o, t)) (fun p => p.2) (fun p => p.1)
      (by
        intro l s
        constructor
        · rintro ⟨p, hp, rfl, rfl⟩
          simp only [List.mem_flatMap, List.mem_map] at hp
          obtain ⟨o, ho, t, ht, rfl⟩ := hp
          exact ⟨ht, ho⟩
        · rintro ⟨hl, hs⟩
          exact ⟨(s, l), by simp only [List.mem_flatMap, List.mem_map]; exact ⟨s, hs, l, hl, rfl⟩, rfl, rfl⟩)
      (broadcastStep op true (r.map Prod.fst))
      (by intro p _ acc _; rfl)
    refine ⟨⟨_, _, bl⟩, ?_, rfl, b2, ?_, b3⟩
    · unfold broadcastOp shapeCompute
      simp only [hle, decide_true, if_true, r1, bind, Except.bind, b1]
      exact mkChecked_ok b2.block
    · obtain ⟨z1, z2, _⟩ := rel_size r3
      simp only [List.map_append, z1, bsizes, List.length_map]
      rw [show b.shape.length - a.shape.length = 0 by omega]
      simp [List.map_take, List.map_drop]
  · rw [if_neg hle] at hg
    obtain ⟨r, r1, r2, r3⟩ := shapes_good hg
    obtain ⟨bl, b1, b2, b3⟩ := broadcast_held (fun x y => op y x) hb ha
      (List.take_append_drop (b.shape.length - a.shape.length) b.shape).symm r3
      (b.blocks.flatMap fun o => a.blocks.map fun t => (o, t)) (fun p => p.1) (fun p => p.2)
      (by
        intro l s
        constructor
        · rintro ⟨p, hp, rfl, rfl⟩
          simp only [List.mem_flatMap, List.mem_map] at hp
          obtain ⟨o, ho, t, ht, rfl⟩ := hp
          exact ⟨ho, ht⟩
        · rintro ⟨hl, hs⟩
          exact ⟨(l, s), by simp only [List.mem_flatMap, List.mem_map]; exact ⟨l, hl, s, hs, rfl⟩, rfl, rfl⟩)
      (broadcastStep op false (r.map Prod.fst))
      (by intro p _ acc _; unfold broadcastStep stepLS; dsimp only; rw [torchOp_flip]; rfl)
    refine ⟨⟨_, _, bl⟩, ?_, add_comm _ _, b2, ?_, fun e he => ⟨fun h1 h2 => (b3 e he).1 h2 h1, fun h => (b3 e he).2 fun h' => h h'.symm⟩⟩
    · unfold broadcastOp shapeCompute
      simp only [hle, decide_false, Bool.false_eq_true, if_false, r1, bind, Except.bind, b1]
      exact mkChecked_ok b2.block
    · obtain ⟨z1, z2, _⟩ := rel_size r3
      simp only [List.map_append, z1, bsizes, List.length_map]
      rw [show a.shape.length - b.shape.length = 0 by omega]
      simp only [List.take_zero, List.nil_append, List.drop_zero, List.map_take, List.map_drop]
      congr 1
      unfold Fits at hf
      rw [show a.shape.length - b.shape.length = 0 by omega, List.drop_zero] at hf
      rw [← List.map_drop]
      clear r1 r2 r3 b1 b2 b3 z1 z2 hg
      generalize b.shape.drop _ = bs at hf ⊢
      generalize a.shape = as at hf ⊢
      induction hf with
      | nil => rfl
      | cons h _ ih =>
        simp only [List.map_cons, List.zipWith_cons_cons, ih]
        rw [bsize_comm (by have := fit_sizes h; omega)]

/-- The result of a broadcasting operation that maps a zero on either side to zero, for dimensions that are handled
right. -/
theorem broadcastOp_good [AddCommMonoid G] [DecidableEq G] [Zero R] (op : R → R → R) (h0 : ∀ x, op 0 x = 0) (h0' : ∀ x, op x 0 = 0)
    (a b : BT G R) (ha : Conserving a.shape a.rule a.blocks) (hb : Conserving b.shape b.rule b.blocks)
    (hg : if b.shape.length ≤ a.shape.length then
        List.Forall₂ GoodDim (a.shape.drop (a.shape.length - b.shape.length)) b.shape
      else List.Forall₂ GoodDim (b.shape.drop (b.shape.length - a.shape.length)) a.shape)
    (hf : Fits a.shape b.shape) :
    ∃ r, broadcastOp op a b = .ok r ∧ r.rule = a.rule + b.rule ∧ Conserving r.shape r.rule r.blocks ∧
      r.shape.map dimSize = bsizes (a.shape.map dimSize) (b.shape.map dimSize) ∧
      ∀ e, InRange e (r.shape.map dimSize) → entry r.shape r.blocks e =
        op (entry a.shape a.blocks (clip (a.shape.map dimSize) e)) (entry b.shape b.blocks (clip (b.shape.map dimSize) e)) := by
  obtain ⟨r, h1, h2, h3, h4, h5⟩ := broadcastOp_held op a b ha hb hg hf
  refine ⟨r, h1, h2, h3, h4, fun e he => ?_⟩
  obtain ⟨h6, h7⟩ := h5 e he
  by_cases hl : Held a.shape a.blocks (clip (a.shape.map dimSize) e)
  · by_cases hs : Held b.shape b.blocks (clip (b.shape.map dimSize) e)
    · exact h6 hl hs
    · rw [h7 fun h => hs h.2, entry_not_held hs, h0']
  · rw [h7 fun h => hl h.1, entry_not_held hl, h0]

/-- **C36**: the product of two tensors with aligned dimensions of equal section sizes, or with a single element on one side,
is the entrywise product of the broadcast tensors.  The charges and the selection rules add up.  The case of a single wide
section in the tensor of larger rank against a single element is missing: see `C36_wide_fails`. -/
theorem C36_mul_partial [AddCommMonoid G] [DecidableEq G] [MulZeroClass R] (a b : BT G R)
    (ha : Conserving a.shape a.rule a.blocks) (hb : Conserving b.shape b.rule b.blocks)
    (hna : ∀ d ∈ a.shape, d ≠ []) (hnb : ∀ d ∈ b.shape, d ≠ []) (hf : Fits a.shape b.shape) (hw : NoWide a.shape b.shape) :
    ∃ r, mul a b = .ok r ∧ r.rule = a.rule + b.rule ∧ Conserving r.shape r.rule r.blocks ∧
      r.shape.map dimSize = bsizes (a.shape.map dimSize) (b.shape.map dimSize) ∧
      ∀ e, InRange e (r.shape.map dimSize) → entry r.shape r.blocks e =
        entry a.shape a.blocks (clip (a.shape.map dimSize) e) * entry b.shape b.blocks (clip (b.shape.map dimSize) e) := by
  refine broadcastOp_good (· * ·) zero_mul mul_zero a b ha hb ?_ hf
  unfold NoWide at hw
  unfold Fits at hf
  by_cases hle : b.shape.length ≤ a.shape.length
  · rw [if_pos hle] at hw ⊢
    rw [show b.shape.length - a.shape.length = 0 by omega, List.drop_zero] at hf
    exact good_of_fit hf hw (fun d hd => hna d (List.mem_of_mem_drop hd)) hnb
  · rw [if_neg hle] at hw ⊢
    rw [show a.shape.length - b.shape.length = 0 by omega, List.drop_zero] at hf
    exact good_of_fit (List.Forall₂.flip (List.Forall₂.imp (fun _ _ h => fitDim_symm h) hf)) hw
      (fun d hd => hnb d (List.mem_of_mem_drop hd)) hna

/-- **C36** for tensors with equal section sizes in every dimension: the entrywise product. -/
theorem C36_equal [AddCommMonoid G] [DecidableEq G] [MulZeroClass R] (a b : BT G R)
    (ha : Conserving a.shape a.rule a.blocks) (hb : Conserving b.shape b.rule b.blocks)
    (hs : a.shape.map (·.map Prod.fst) = b.shape.map (·.map Prod.fst)) :
    ∃ r, mul a b = .ok r ∧ r.rule = a.rule + b.rule ∧ Conserving r.shape r.rule r.blocks ∧
      r.shape.map dimSize = a.shape.map dimSize ∧
      ∀ e, InRange e (a.shape.map dimSize) →
        entry r.shape r.blocks e = entry a.shape a.blocks e * entry b.shape b.blocks e := by
  have hlen : a.shape.length = b.shape.length := by simpa using congrArg List.length hs
  have hsame : List.Forall₂ (fun d d' => d.map Prod.fst = d'.map Prod.fst) a.shape b.shape := by
    generalize a.shape = s at hs hlen
    generalize b.shape = s' at hs hlen
    clear ha hb
    induction s generalizing s' with
    | nil => cases s' with
      | nil => exact .nil
      | cons _ _ => simp at hlen
    | cons d s ih => cases s' with
      | nil => simp at hlen
      | cons d' s' =>
        simp only [List.map_cons, List.cons.injEq] at hs
        exact .cons hs.1 (ih s' hs.2 (by simpa using hlen))
  have hsz : a.shape.map dimSize = b.shape.map dimSize := by
    clear ha hb hs hlen
    generalize a.shape = s at hsame ⊢
    generalize b.shape = s' at hsame ⊢
    induction hsame with
    | nil => rfl
    | cons h _ ih => simp [ih, dimSize_sizes h]
  obtain ⟨r, h1, h2, h3, h4, h5⟩ := broadcastOp_good (· * ·) zero_mul mul_zero a b ha hb
    (by
      rw [if_pos (by omega), hlen, Nat.sub_self, List.drop_zero]
      exact hsame.imp fun _ _ h => Or.inl h)
    (by
      unfold Fits
      rw [hlen, Nat.sub_self, List.drop_zero, List.drop_zero]
      exact hsame.imp fun _ _ h => Or.inl h)
  have hr : r.shape.map dimSize = a.shape.map dimSize := by
    rw [h4, hsz]
    simp only [bsizes, Nat.sub_self, List.take_zero, List.drop_zero, List.nil_append]
    generalize b.shape.map dimSize = l
    induction l with
    | nil => rfl
    | cons n l ih => simp [bsize]
  refine ⟨r, h1, h2, h3, hr, ?_⟩
  intro e he
  rw [h5 e (by rw [hr]; exact he)]
  have hce : ∀ {l : List Nat}, InRange e l → clip l e = e := by
    intro l h
    rw [clip_eq h.length_eq.symm, clips_inRange h]
  rw [hce he, hce (hsz ▸ he)]

/-! ### In place -/

theorem maskDim_parts (l s : Dim G) : maskDim l s % 2 = (if OneElement s then 1 else 0) ∧
    maskDim l s / 2 % 2 = (if OneElement l then 1 else 0) := by
  unfold maskDim unitDim OneElement
  by_cases h1 : s.map Prod.fst = [1] <;> by_cases h2 : l.map Prod.fst = [1] <;> simp [h1, h2]

theorem inPlace_dim {l s : Dim G} (h : GoodDim l s) (hc : OneElement l → OneElement s) {i j : Nat} {x y : Nat × G}
    (hx : l[i]? = some x) (hy : s[j]? = some y) (hm : maskDim l s ≠ 0 ∨ i = j) : bsize x.1 y.1 = x.1 := by
  by_cases hs : OneElement s
  · obtain ⟨q, rfl⟩ := oneElement_iff.1 hs
    have hj : j = 0 := by have := (List.getElem?_eq_some_iff.1 hy).1; simp at this; exact this
    subst hj
    cases hy
    unfold bsize; split <;> omega
  · have hl : ¬ OneElement l := fun h => hs (hc h)
    have hm0 : ¬ (maskDim l s ≠ 0) := by
      intro h
      rcases maskDim_ne.1 h with h | h
      · exact hl h
      · exact hs h
    have hij : i = j := hm.resolve_left hm0
    subst hij
    rcases h with h | h | h
    · have := congrArg (fun L => L[i]?) h
      simp [hx, hy] at this
      unfold bsize; split <;> omega
    · exact absurd h.1 hs
    · exact absurd h.1 hl

theorem inPlace_sizes {ls ss : Shape G} (h : List.Forall₂ GoodDim ls ss) (hc : canInPlace true (List.zipWith maskDim ls ss) = true) :
    ∀ {ki kj : List Nat} {xs ys : List (Nat × G)}, sections ls ki = some xs → sections ss kj = some ys →
      MaskEq (List.zipWith maskDim ls ss) ki kj → List.zipWith bsize (xs.map Prod.fst) (ys.map Prod.fst) = xs.map Prod.fst := by
  induction h with
  | nil =>
    intro ki kj xs ys h1 h2 hm
    cases hm
    simp [sections] at h1 h2
    subst h1; subst h2
    rfl
  | @cons l s ls ss hd _ ih =>
    intro ki kj xs ys h1 h2 hm
    simp only [List.zipWith_cons_cons] at hc hm
    simp only [canInPlace, List.all_cons, Bool.and_eq_true] at hc ih
    cases hm with
    | cons hij hm =>
      obtain ⟨x, xs, a1, a2, rfl⟩ := sections_cons.1 h1
      obtain ⟨y, ys, b1, b2, rfl⟩ := sections_cons.1 h2
      have hc1 : OneElement l → OneElement s := by
        intro hl
        by_contra hs
        have := hc.1
        simp [maskDim_parts, hl, hs] at this
      simp only [List.map_cons, List.zipWith_cons_cons, inPlace_dim hd hc1 a1 b1 hij, ih hc.2 a2 b2 hm]

theorem foldlM_congr' {α β : Type} {f g : β → α → Res β} : ∀ (ps : List α) (acc : β), (∀ p ∈ ps, ∀ acc, f acc p = g acc p) →
    ps.foldlM f acc = ps.foldlM g acc
  | [], _, _ => rfl
  | p :: ps, acc, h => by
    rw [List.foldlM_cons, List.foldlM_cons, h p (by simp)]
    cases g acc p with
    | error e => rfl
    | ok v => exact foldlM_congr' ps v fun q hq => h q (by simp [hq])

/-- In place and out of place agree, for an argument of no larger rank. -/
theorem broadcastInPlace_eq [AddCommMonoid G] [DecidableEq G] [Zero R] (op : R → R → R) (a b : BT G R)
    (ha : Conserving a.shape a.rule a.blocks) (hb : Conserving b.shape b.rule b.blocks)
    (hna : ∀ d ∈ a.shape, d ≠ []) (hnb : ∀ d ∈ b.shape, d ≠ []) (hf : Fits a.shape b.shape) (hw : NoWide a.shape b.shape)
    (hle : b.shape.length ≤ a.shape.length) : broadcastInPlace op a b = broadcastOp op a b := by
  unfold NoWide at hw
  unfold Fits at hf
  rw [if_pos hle] at hw
  rw [show b.shape.length - a.shape.length = 0 by omega, List.drop_zero] at hf
  have hg := good_of_fit hf hw (fun d hd => hna d (List.mem_of_mem_drop hd)) hnb
  obtain ⟨r, r1, r2, r3⟩ := shapes_good hg
  have hsh := (List.take_append_drop (a.shape.length - b.shape.length) a.shape).symm
  obtain ⟨bl, b1, b2, b3⟩ := broadcast_held op ha hb hsh r3
    (b.blocks.flatMap fun o => a.blocks.map fun t => (o, t)) (fun p => p.2) (fun p => p.1)
    (by
      intro l s
      constructor
      · rintro ⟨p, hp, rfl, rfl⟩
        simp only [List.mem_flatMap, List.mem_map] at hp
        obtain ⟨o, ho, t, ht, rfl⟩ := hp
        exact ⟨ht, ho⟩
      · rintro ⟨hl, hs⟩
        exact ⟨(s, l), by simp only [List.mem_flatMap, List.mem_map]; exact ⟨s, hs, l, hl, rfl⟩, rfl, rfl⟩)
    (broadcastStep op true (r.map Prod.fst))
    (by intro p _ acc _; rfl)
  have hstep : (b.blocks.flatMap fun o => a.blocks.map fun t => (o, t)).foldlM
      (broadcastStepInPlace op (canInPlace true (r.map Prod.fst)) (r.map Prod.fst)) [] =
      (b.blocks.flatMap fun o => a.blocks.map fun t => (o, t)).foldlM (broadcastStep op true (r.map Prod.fst)) [] := by
    refine foldlM_congr' _ _ ?_
    rintro ⟨o, t⟩ hp acc
    simp only [List.mem_flatMap, List.mem_map] at hp
    obtain ⟨o, ho, t, ht, he⟩ := hp
    cases he
    unfold broadcastStepInPlace broadcastStep
    simp only [if_true]
    by_cases hm : matchIndex (r.map Prod.fst) t.1 o.1 = true
    · by_cases hc : canInPlace true (r.map Prod.fst) = true
      · obtain ⟨k1, k2, x1, x2, ys, a1, a2, a3, a4, a5, a6, a7, a8, a9, _⟩ := bpair_facts ha hb hsh r3 ht ho
        obtain ⟨c1, c2⟩ := rel_sections r3 a3 a4 (a5.1 hm)
        have hd : bcDims t.2.dims o.2.dims = some t.2.dims := by
          have := inPlace_sizes hg (r2 ▸ hc) a3 a4 (r2 ▸ a5.1 hm)
          rw [a8, a9, bcDims_eq (List.forall₂_map_left_iff.2 (List.forall₂_map_right_iff.2 c2)), this]
        rw [if_pos hm, if_pos hm, if_pos hc]
        simp only [torchOpInPlace, torchOp, hd, bind, Except.bind, if_true]
      · rw [if_pos hm, if_pos hm, if_neg hc]
    · rw [if_neg hm, if_neg hm]
  unfold broadcastInPlace broadcastOp shapeCompute
  simp only [hle, decide_true, if_true, r1, bind, Except.bind, hstep, b1]
  exact (mkChecked_ok b2.block).symm

/-- **C36**, in place: `a.mul_(b)` leaves in `a` what `a.mul(b)` returns, for `b` of no larger rank. -/
theorem C36_in_place_partial [AddCommMonoid G] [DecidableEq G] [MulZeroClass R] (a b : BT G R)
    (ha : Conserving a.shape a.rule a.blocks) (hb : Conserving b.shape b.rule b.blocks)
    (hna : ∀ d ∈ a.shape, d ≠ []) (hnb : ∀ d ∈ b.shape, d ≠ []) (hf : Fits a.shape b.shape) (hw : NoWide a.shape b.shape)
    (hle : b.shape.length ≤ a.shape.length) : mulInPlace a b = mul a b :=
  broadcastInPlace_eq (· * ·) a b ha hb hna hnb hf hw hle

/-! ### Where the code departs -/

/-- A vector with one section of size `n` and one block. -/
def lone (n : Nat) (q : ℤ) (f : List Nat → ℤ) : BT ℤ ℤ := ⟨[[(n, q)]], q, [([0], ⟨[n], f⟩)]⟩

theorem lone_conserving (n : Nat) (q : ℤ) (f : List Nat → ℤ) :
    Conserving (lone n q f).shape (lone n q f).rule (lone n q f).blocks := by
  refine ⟨by simp [Sorted, lone], ?_⟩
  intro k b h
  simp only [lone, List.mem_singleton, Prod.mk.injEq] at h
  obtain ⟨rfl, rfl⟩ := h
  exact ⟨[(n, q)], rfl, by simp [charge, lone], rfl⟩

theorem wide_shape (n : Nat) (hn : n ≠ 1) (q q' : ℤ) (f f' : List Nat → ℤ) :
    shapeCompute (lone n q f) (lone 1 q' f') = .ok ([1], [[(1, q' + q)]], q + q') := by
  simp [shapeCompute, lone, shapeDim, maskDim, unitDim, addCharges, hn]
  rfl

theorem wide_bcDims (n : Nat) : bcDims [n] [1] = some [n] := by
  have := bcDims_eq (a := []) (xs := [n]) (ys := [1]) (.cons (Or.inr (Or.inr rfl)) .nil)
  rw [show ([] : List Nat) ++ [n] = [n] from rfl] at this
  rw [this]
  simp [bsize, eq_comm]

/-- **C36** fails for a single wide section times a single element: the size of the new section is taken from the single
element, and the construction of the result throws.  With the two tensors swapped the product is returned. -/
theorem C36_wide_fails (n : Nat) (hn : n ≠ 1) (q q' : ℤ) (f f' : List Nat → ℤ) :
    Fits (lone n q f).shape (lone 1 q' f').shape ∧ mul (lone n q f) (lone 1 q' f') = Res.throw .invalidArgument ∧
      ∃ r, mul (lone 1 q' f') (lone n q f) = .ok r := by
  refine ⟨.cons (Or.inr (Or.inr rfl)) .nil, ?_, ?_⟩
  · have hm : matchIndex [1] [0] [0] = true := by decide
    have hi : outIndex [0] [0] = .ok [0] := rfl
    have he : ∀ v : Blk ℤ, FM.emplaceHint ([] : FM (List Nat) (Blk ℤ)) ([] : FM (List Nat) (Blk ℤ)).length [0] v = .ok ([([0], v)], some 0, true) := fun _ => rfl
    have hc : ∀ v : List Nat → ℤ, mkChecked [[(1, q' + q)]] (q + q') [([0], ⟨[n], v⟩)] = Res.throw .invalidArgument := by
      intro v
      have h1 : checkBlock [[(1, q' + q)]] (q + q') ([0], (⟨[n], v⟩ : Blk ℤ)) = .ok false := by
        simp [checkBlock, checkIndex, hn, bind, Except.bind]
      simp [mkChecked, h1, bind, Except.bind, pure, Except.pure]
    unfold mul broadcastOp
    simp only [show ((lone 1 q' f').shape.length ≤ (lone n q f).shape.length) = True from by simp [lone], decide_true, if_true,
      wide_shape n hn, bind, Except.bind]
    simp only [lone, List.flatMap_cons, List.flatMap_nil, List.map_cons, List.map_nil, List.append_nil, List.foldlM_cons,
      List.foldlM_nil, broadcastStep, if_true, hm, hi, torchOp, wide_bcDims, bind, Except.bind, he, pure, Except.pure, hc]
  · obtain ⟨r, h, _⟩ := C36_mul_partial (lone 1 q' f') (lone n q f) (lone_conserving _ _ _) (lone_conserving _ _ _)
      (by simp [lone]) (by simp [lone]) (.cons (Or.inr (Or.inl rfl)) .nil)
      (by simp [NoWide, lone, NotWide, OneElement])
    exact ⟨r, h⟩

/-- In place, the same wide section is not rejected: `a.mul_(b)` leaves `a` with a block that does not have the size of its
section. -/
theorem C36_wide_in_place_fails (n : Nat) (hn : n ≠ 1) (q q' : ℤ) (f f' : List Nat → ℤ) :
    ∃ r, mulInPlace (lone n q f) (lone 1 q' f') = .ok r ∧ ¬ Conserving r.shape r.rule r.blocks := by
  have hm : matchIndex [1] [0] [0] = true := by decide
  have hi : outIndex [0] [0] = .ok [0] := rfl
  have he : ∀ v : Blk ℤ, FM.emplaceHint ([] : FM (List Nat) (Blk ℤ)) ([] : FM (List Nat) (Blk ℤ)).length [0] v = .ok ([([0], v)], some 0, true) := fun _ => rfl
  refine ⟨⟨[[(1, q' + q)]], q + q', [([0], ⟨[n], fun o => f (clip [n] o) * f' (clip [1] o)⟩)]⟩, ?_, ?_⟩
  · unfold mulInPlace broadcastInPlace
    simp only [show ((lone 1 q' f').shape.length ≤ (lone n q f).shape.length) = True from by simp [lone], decide_true, if_true,
      wide_shape n hn, bind, Except.bind]
    have hcan : canInPlace true [1] = true := by decide
    simp only [lone, List.flatMap_cons, List.flatMap_nil, List.map_cons, List.map_nil, List.append_nil, List.foldlM_cons,
      List.foldlM_nil, broadcastStepInPlace, if_true, hm, hi, hcan, torchOpInPlace, torchOp, wide_bcDims, bind, Except.bind, he,
      pure, Except.pure]
  · intro h
    obtain ⟨secs, h1, h2, h3⟩ := h.block [0] _ (List.mem_singleton.2 rfl)
    simp [sections] at h1
    subst h1
    simp at h3
    exact hn h3

/-- In place, an argument of larger rank is undefined behaviour as soon as two blocks meet: the result is built as if the
argument had the smaller rank.  `mul` handles this argument. -/
theorem C36_in_place_rank_fails (n : Nat) (q : ℤ) (f f' : List Nat → ℤ) (a : BT ℤ ℤ) (ha : a = ⟨[], 0, [([], ⟨[], f⟩)]⟩) :
    Conserving a.shape a.rule a.blocks ∧ mulInPlace a (lone n q f') = Res.ub ∧ ∃ r, mul a (lone n q f') = .ok r := by
  have hc : Conserving a.shape a.rule a.blocks := by
    subst ha
    refine ⟨by simp [Sorted], ?_⟩
    intro k b h
    simp only [List.mem_singleton, Prod.mk.injEq] at h
    obtain ⟨rfl, rfl⟩ := h
    exact ⟨[], rfl, by simp [charge], rfl⟩
  refine ⟨hc, ?_, ?_⟩
  · subst ha
    rfl
  · obtain ⟨r, h, _⟩ := C36_mul_partial a (lone n q f') hc (lone_conserving _ _ _) (by simp [ha]) (by simp [lone])
      (by simp [Fits, ha]) (by simp [NoWide, ha, lone])
    exact ⟨r, h⟩

theorem shapeDim_cases [Add G] {l s : Dim G} (hl : l ≠ []) (hs : s ≠ []) :
    (∃ r, shapeDim l s = .ok r) ∨ shapeDim l s = Res.throw .invalidArgument := by
  obtain ⟨x, l, rfl⟩ := List.exists_cons_of_ne_nil hl
  obtain ⟨y, s, rfl⟩ := List.exists_cons_of_ne_nil hs
  unfold shapeDim
  dsimp only
  split
  · exact Or.inr rfl
  · left
    split <;> simp [addCharges, bind, Except.bind]

theorem shapes_throw [Add G] : ∀ (ps : List (Dim G × Dim G)), (∀ p ∈ ps, p.1 ≠ [] ∧ p.2 ≠ []) →
    (∃ p ∈ ps, ¬ OneElement p.1 ∧ ¬ OneElement p.2 ∧ p.1.length ≠ p.2.length) →
    ps.mapM (fun p => shapeDim p.1 p.2) = Res.throw .invalidArgument
  | [], _, h => by simp at h
  | p :: ps, hn, h => by
    rw [List.mapM_cons]
    obtain ⟨h1, h2⟩ := hn p (by simp)
    rcases shapeDim_cases h1 h2 with ⟨r, hr⟩ | hr
    · obtain ⟨p', hp', b1, b2, b3⟩ := h
      rcases List.mem_cons.1 hp' with rfl | hp'
      · exfalso
        unfold shapeDim at hr
        have : maskDim p'.1 p'.2 = 0 := by
          by_contra hm
          rcases maskDim_ne.1 hm with h | h
          · exact b1 h
          · exact b2 h
        simp only [this, true_and] at hr
        rw [if_pos (Ne.symm b3)] at hr
        cases hr
      · rw [hr, shapes_throw ps (fun p hp => hn p (by simp [hp])) ⟨p', hp', b1, b2, b3⟩]
        rfl
    · rw [hr]
      rfl

/-- **C36**: aligned dimensions with different numbers of sections, none of them a single element, are rejected, by `mul` and
by `mul_`. -/
theorem C36_sections_rejected [AddCommMonoid G] [DecidableEq G] [Mul R] (a b : BT G R)
    (hna : ∀ d ∈ a.shape, d ≠ []) (hnb : ∀ d ∈ b.shape, d ≠ [])
    (h : ∃ p ∈ (a.shape.drop (a.shape.length - b.shape.length)).zip (b.shape.drop (b.shape.length - a.shape.length)),
      ¬ OneElement p.1 ∧ ¬ OneElement p.2 ∧ p.1.length ≠ p.2.length) :
    mul a b = Res.throw .invalidArgument ∧ mulInPlace a b = Res.throw .invalidArgument := by
  have key : shapeCompute (if decide (b.shape.length ≤ a.shape.length) = true then a else b)
      (if decide (b.shape.length ≤ a.shape.length) = true then b else a) = Res.throw .invalidArgument := by
    by_cases hle : b.shape.length ≤ a.shape.length
    · simp only [hle, decide_true, if_true]
      rw [show b.shape.length - a.shape.length = 0 by omega, List.drop_zero] at h
      unfold shapeCompute
      dsimp only
      rw [shapes_throw _ ?_ h]
      · rfl
      · intro p hp
        exact ⟨hna _ (List.mem_of_mem_drop (List.of_mem_zip hp).1), hnb _ (List.of_mem_zip hp).2⟩
    · simp only [hle, decide_false, Bool.false_eq_true, if_false]
      rw [show a.shape.length - b.shape.length = 0 by omega, List.drop_zero] at h
      unfold shapeCompute
      dsimp only
      rw [shapes_throw _ ?_ ?_]
      · rfl
      · intro p hp
        exact ⟨hnb _ (List.mem_of_mem_drop (List.of_mem_zip hp).1), hna _ (List.of_mem_zip hp).2⟩
      · obtain ⟨p, hp, h1, h2, h3⟩ := h
        refine ⟨p.swap, ?_, h2, h1, Ne.symm h3⟩
        obtain ⟨i, hi⟩ := List.mem_iff_getElem?.1 hp
        rw [List.getElem?_zip_eq_some] at hi
        exact List.mem_iff_getElem?.2 ⟨i, List.getElem?_zip_eq_some.2 ⟨hi.2, hi.1⟩⟩
  constructor
  · unfold mul broadcastOp
    simp only [key, bind, Except.bind, Res.throw]
  · unfold mulInPlace broadcastInPlace
    simp only [key, bind, Except.bind, Res.throw]

/-! ### Concrete cases -/

/-- A row with a single element in its first dimension and the second dimension of `ex18`. -/
def ex36 : BT ℤ ℤ := ⟨[[(1, 1)], [(1, 0), (2, -1)]], 0, [([0, 1], ⟨[1, 2], fun o => 3 + (o.getD 1 0 : ℤ)⟩)]⟩

theorem ex36_conserving : Conserving ex36.shape ex36.rule ex36.blocks := by
  refine ⟨by simp [Sorted, ex36], ?_⟩
  intro k b h
  simp only [ex36, List.mem_singleton, Prod.mk.injEq] at h
  obtain ⟨rfl, rfl⟩ := h
  exact ⟨[(1, 1), (2, -1)], by decide, by decide, rfl⟩

example : Fits ex18.shape ex36.shape ∧ NoWide ex18.shape ex36.shape ∧ Fits ex36.shape ex18.shape ∧ NoWide ex36.shape ex18.shape := by
  unfold Fits NoWide; decide
example : (∀ d ∈ ex18.shape, d ≠ []) ∧ ∀ d ∈ ex36.shape, d ≠ [] := by decide
example : ex18.shape.map (·.map Prod.fst) = (inverseCvals ex18).shape.map (·.map Prod.fst) := by decide
example : ((mul ex18 ex36).toOption.map fun r => (r.shape, r.blocks.map fun x => (x.1, x.2.dims))) =
    some ([[(2, 1), (1, 2)], [(1, 0), (2, -2)]], [([1, 1], [1, 2])]) := by decide
example : ∃ p ∈ (ex18.shape.drop 0).zip ([[(2, 0), (1, 1), (1, 1)], [(1, 0), (2, -1)]] : Shape ℤ),
    ¬ OneElement p.1 ∧ ¬ OneElement p.2 ∧ p.1.length ≠ p.2.length := by decide

end BT
end QuantiT
