import Verif.Model.BlockMps
import Verif.Props.SvdSplit
import Verif.Props.Broadcast
import Verif.Props.MoveOc
import Verif.Props.BlockNetwork
import Verif.Props.BlockEdges
/-
Lemmas for moving the orthogonality center of a block MPS.
-/
namespace QuantiT
namespace BN
open Spec BT MP Finset
variable {G R : Type}

/-! ### Scaling the last dimension -/

/-- `x.mul(d)` for a neutral vector `d` along the last dimension of `x`. -/
theorem mul_last [AddCommMonoid G] [DecidableEq G] [MulZeroClass R] (x d : BT G R) (ds : Shape G) (b : Dim G)
    (hx : x.shape = ds ++ [b]) (hd : d.shape = neutralised [b]) (hr : d.rule = 0) (cx : Conserving x.shape x.rule x.blocks)
    (cd : Conserving d.shape d.rule d.blocks) (hds : Populated ds) (hb : b ≠ []) :
    ∃ r, mul x d = .ok r ∧ r.shape = ds ++ [b] ∧ r.rule = x.rule ∧ Conserving r.shape r.rule r.blocks ∧
      ∀ e k, InRange e (ds.map dimSize) → k < dimSize b →
        entry r.shape r.blocks (e ++ [k]) = entry x.shape x.blocks (e ++ [k]) * entry d.shape d.blocks [k] := by
  let b0 : Dim G := b.map fun s => (s.1, 0)
  have hd' : d.shape = [b0] := hd
  have hsz : b.map Prod.fst = b0.map Prod.fst := by simp [b0, Function.comp_def]
  have hb0 : b0 ≠ [] := by simpa [b0] using hb
  have hlen : x.shape.length - d.shape.length = ds.length := by rw [hx, hd']; simp
  have hlen' : d.shape.length - x.shape.length = 0 := by rw [hx, hd']; simp
  have hle : d.shape.length ≤ x.shape.length := by rw [hx, hd']; simp
  have hdrop : x.shape.drop ds.length = [b] := by rw [hx]; simp
  obtain ⟨r, h1, h2, h3, h4, h5⟩ := C36_mul_partial x d cx cd
    (by
      rw [hx]
      intro e he
      rcases List.mem_append.1 he with h | h
      · exact hds e h
      · rw [List.mem_singleton.1 h]; exact hb)
    (by rw [hd']; intro e he; rw [List.mem_singleton.1 he]; exact hb0)
    (by
      unfold Fits
      rw [hlen, hlen', hdrop, hd', List.drop_zero]
      exact .cons (.inl hsz) .nil)
    (by
      unfold NoWide
      rw [if_pos hle, hlen, hdrop, hd']
      refine .cons ?_ .nil
      intro h _
      unfold OneElement at h ⊢
      rw [hsz, h])
  have hshape : r.shape = ds ++ [b] := by
    have hsd : shapeDim b b0 = .ok (maskDim b b0, b) := by
      unfold shapeDim
      dsimp only
      have hl : b0.length = b.length := by simp [b0]
      rw [if_neg (by omega), if_neg (by omega), addCharges_same hl]
      have : List.zipWith (fun (x y : Nat × G) => (x.1, x.2 + y.2)) b0 b = b := by
        simp only [b0]
        clear * -
        induction b with
        | nil => rfl
        | cons s b ih => simp [ih]
      rw [this]
      rfl
    have hsc : shapeCompute x d = .ok ([maskDim b b0], ds ++ [b], x.rule + d.rule) := by
      unfold shapeCompute
      dsimp only
      rw [hlen, hdrop, hd', hx]
      simp only [List.zip_cons_cons, List.zip_nil_right, List.mapM_cons, List.mapM_nil, hsd, bind, Except.bind, pure, Except.pure]
      simp
    unfold mul broadcastOp at h1
    simp only [hle, decide_true, if_true, hsc, bind, Except.bind] at h1
    split at h1
    · cases h1
    · rw [(mkChecked_inv h1).1]
  refine ⟨r, h1, hshape, by rw [h2, hr, add_zero], h3, fun e k he hk => ?_⟩
  have hin : InRange (e ++ [k]) (r.shape.map dimSize) := by
    rw [hshape, List.map_append]
    exact List.rel_append he (.cons hk .nil)
  rw [h5 _ hin]
  congr 2
  · rw [hx, clip_eq (by rw [hshape] at hin; exact (List.Forall₂.length_eq hin).symm), clips_inRange]
    rw [hshape] at hin
    exact hin
  · rw [hd', clip_append_right (by simp), clips_inRange]
    refine .cons ?_ .nil
    simpa [dimSize, b0, Function.comp_def] using hk

/-- `x.mul_(d)` in place gives the same. -/
theorem mul_last_in_place [AddCommMonoid G] [DecidableEq G] [MulZeroClass R] (x d : BT G R) (ds : Shape G) (b : Dim G)
    (hx : x.shape = ds ++ [b]) (hd : d.shape = neutralised [b]) (cx : Conserving x.shape x.rule x.blocks)
    (cd : Conserving d.shape d.rule d.blocks) (hds : Populated ds) (hb : b ≠ []) : mulInPlace x d = mul x d := by
  let b0 : Dim G := b.map fun s => (s.1, 0)
  have hd' : d.shape = [b0] := hd
  have hsz : b.map Prod.fst = b0.map Prod.fst := by simp [b0, Function.comp_def]
  have hb0 : b0 ≠ [] := by simpa [b0] using hb
  have hlen : x.shape.length - d.shape.length = ds.length := by rw [hx, hd']; simp
  have hlen' : d.shape.length - x.shape.length = 0 := by rw [hx, hd']; simp
  have hle : d.shape.length ≤ x.shape.length := by rw [hx, hd']; simp
  have hdrop : x.shape.drop ds.length = [b] := by rw [hx]; simp
  refine C36_in_place_partial x d cx cd ?_ ?_ ?_ ?_ hle
  · rw [hx]
    intro e he
    rcases List.mem_append.1 he with h | h
    · exact hds e h
    · rw [List.mem_singleton.1 h]; exact hb
  · rw [hd']; intro e he; rw [List.mem_singleton.1 he]; exact hb0
  · unfold Fits
    rw [hlen, hlen', hdrop, hd', List.drop_zero]
    exact .cons (.inl hsz) .nil
  · unfold NoWide
    rw [if_pos hle, hlen, hdrop, hd']
    refine .cons ?_ .nil
    intro h _
    unfold OneElement at h ⊢
    rw [hsz, h]

/-! ### States that are not zero -/

/-- Some amplitude is not zero. -/
theorem site_ne_zero [Semiring R] : ∀ (s : List (Blk R)) (cs : List Nat) (l r : Nat), Linked 3 (s.map Blk.dims) →
    InRange cs (phys s) → l < leftEnd s → amp s cs l r ≠ 0 → ∀ (i : Nat) (A : Blk R), s[i]? = some A →
      ∃ a c b, InRange [a, c, b] A.dims ∧ A.f [a, c, b] ≠ 0
  | [], _, _, _, _, _, _, _, _, _, h => by simp at h
  | A :: s, cs, l, r, hl, hc, h0, ha, i, B, hB => by
    unfold phys at hc
    rw [List.map_cons] at hc
    cases hc with
    | @cons c _ cs' _ hc1 hc2 =>
    simp only [amp] at ha
    obtain ⟨k, hk, hne⟩ := exists_ne_zero_of_sum_ne_zero ha
    have hA3 : A.dims.length = 3 := hl.1 A.dims (by simp)
    obtain ⟨n0, n1, n2, hd⟩ := List.length_eq_three.1 hA3
    simp only [leftEnd, List.head?_cons, hd, List.getD_cons_zero] at h0
    simp only [hd, List.getD_cons_succ, List.getD_cons_zero] at hc1 hk
    have hk := mem_range.1 hk
    cases i with
    | zero =>
      simp only [List.getElem?_cons_zero, Option.some.injEq] at hB
      subst hB
      refine ⟨l, c, k, ?_, left_ne_zero_of_mul hne⟩
      rw [hd]
      exact .cons h0 (.cons hc1 (.cons hk .nil))
    | succ i =>
      rw [List.getElem?_cons_succ] at hB
      refine site_ne_zero s cs' k r ?_ hc2 ?_ (right_ne_zero_of_mul hne) i B hB
      · refine ⟨fun d hd => hl.1 d (by rw [List.map_cons]; exact List.mem_cons_of_mem _ hd), fun i s s' h1 h2 => hl.2 (i + 1) s s' ?_ ?_⟩
        · simpa using h1
        · simpa using h2
      · rcases s with _ | ⟨C, s⟩
        · simp at hB
        · have := hl.2 0 A.dims C.dims (by simp) (by simp)
          simp only [leftEnd, List.head?_cons]
          have hC3 : C.dims.length = 3 := hl.1 C.dims (by simp)
          obtain ⟨m0, m1, m2, hd'⟩ := List.length_eq_three.1 hC3
          rw [hd, hd'] at this
          simp only [List.getElem?_cons_succ, List.getElem?_cons_zero, Option.some.injEq] at this
          rw [hd']
          simpa [← this] using hk

/-- A block tensor with an entry that is not zero stores a block, and has no dimension of size zero. -/
theorem blocks_of_entry [Zero R] {t : BT G R} {e : List Nat} (he : InRange e (t.shape.map dimSize))
    (h : entry t.shape t.blocks e ≠ 0) : t.blocks ≠ [] ∧ ∀ d ∈ t.shape, 0 < dimSize d := by
  constructor
  · intro h0
    rw [h0] at h
    unfold entry at h
    split at h
    · exact h rfl
    · exact h rfl
  · intro d hd
    clear h
    generalize t.shape = s at he hd
    induction s generalizing e with
    | nil => cases hd
    | cons x s ih =>
      unfold InRange at he
      rw [List.map_cons] at he
      cases he with
      | cons h1 h2 =>
        rcases List.mem_cons.1 hd with rfl | hd
        · omega
        · exact ih h2 hd

end BN
end QuantiT

namespace QuantiT
namespace BN
open Spec BT MP Finset
variable {G R : Type}

/-! ### Replacing two neighbours -/

theorem getElem?_set2 {α : Type} {s : List α} {p : Nat} (h : p + 1 < s.length) (x y : α) (i : Nat) :
    ((s.set p x).set (p + 1) y)[i]? = if i = p + 1 then some y else if i = p then some x else s[i]? := by
  rw [List.getElem?_set, List.getElem?_set]
  by_cases h1 : i = p + 1
  · subst h1; rw [if_pos rfl, if_pos rfl, if_pos (by simpa using h)]
  · rw [if_neg (by omega), if_neg h1]
    by_cases h0 : i = p
    · subst h0; rw [if_pos rfl, if_pos rfl, if_pos (by omega)]
    · rw [if_neg (by omega), if_neg h0]

theorem set2_split {α : Type} {s : List α} {p : Nat} {a b : α} (ha : s[p]? = some a) (hb : s[p + 1]? = some b) :
    ∃ pre post, s = pre ++ a :: b :: post ∧ ∀ x y, (s.set p x).set (p + 1) y = pre ++ x :: y :: post := by
  obtain ⟨h1, rfl⟩ := List.getElem?_eq_some_iff.1 ha
  obtain ⟨h2, rfl⟩ := List.getElem?_eq_some_iff.1 hb
  have hs : s = s.take p ++ s[p] :: s[p + 1] :: s.drop (p + 2) := by
    rw [← List.drop_eq_getElem_cons h2, ← List.drop_eq_getElem_cons h1, List.take_append_drop]
  have hl : (s.take p).length = p := by simp; omega
  refine ⟨s.take p, s.drop (p + 2), hs, fun x y => ?_⟩
  conv_lhs => rw [hs]
  rw [List.set_append_right _ _ (by omega), hl, List.set_append_right _ _ (by omega), hl,
    Nat.sub_self, Nat.add_sub_cancel_left]
  rfl

/-- What replacing two neighbours of a block chain keeps. -/
theorem pair_replaceB [AddCommMonoid G] {s : List (BT G R)} {p : Nat} {A B A' B' : BT G R} {l c m m' c' r k k' : Dim G}
    (hA : s[p]? = some A) (hB : s[p + 1]? = some B) (hch : Chained 3 s)
    (dA : A.shape = [l, c, m]) (dB : B.shape = [m', c', r]) (dA' : A'.shape = [l, c, k]) (dB' : B'.shape = [k', c', r])
    (hk : Opposite k k') (sA : Sound A') (sB : Sound B') (hr : A'.rule + B'.rule = A.rule + B.rule) :
    Chained 3 ((s.set p A').set (p + 1) B') ∧ SameOuter s ((s.set p A').set (p + 1) B') := by
  have hp := (List.getElem?_eq_some_iff.1 hB).1
  constructor
  · constructor
    · intro t ht
      have ht1 : t = A' ∨ t = B' ∨ t ∈ s := by
        rcases List.mem_or_eq_of_mem_set ht with h | h
        · rcases List.mem_or_eq_of_mem_set h with h | h
          · exact .inr (.inr h)
          · exact .inl h
        · exact .inr (.inl h)
      rcases ht1 with rfl | rfl | h
      · exact ⟨sA, by rw [dA']; rfl⟩
      · exact ⟨sB, by rw [dB']; rfl⟩
      · exact hch.1 t h
    · intro i t t' h1 h2
      rw [getElem?_set2 hp] at h1 h2
      by_cases c1 : i = p + 1
      · subst c1
        rw [if_pos rfl] at h1
        rw [if_neg (by omega), if_neg (by omega)] at h2
        cases h1
        have := hch.2 (p + 1) B t' hB h2
        rw [dB] at this
        rw [dB']
        exact this
      · rw [if_neg c1] at h1
        by_cases c0 : i = p
        · subst c0
          rw [if_pos rfl] at h1 h2
          cases h1; cases h2
          rw [dA', dB']
          exact hk
        · rw [if_neg c0] at h1
          rw [if_neg (by omega)] at h2
          by_cases c2 : i + 1 = p
          · rw [if_pos c2] at h2; cases h2
            have := hch.2 i t A h1 (by rw [c2]; exact hA)
            rw [dA] at this
            rw [dA']
            exact this
          · rw [if_neg c2] at h2
            exact hch.2 i t t' h1 h2
  · obtain ⟨pre, post, hs, hset⟩ := set2_split hA hB
    rw [hset A' B']
    conv_lhs => rw [hs]
    refine ⟨by simp [dA, dB, dA', dB'], ?_, ?_, ?_⟩
    · rcases pre with _ | ⟨x, pre⟩ <;> simp [leftDim, dA, dA']
    · rcases post with _ | ⟨x, post⟩ <;> simp [rightDim, dB, dB']
    · simp only [List.map_append, List.map_cons, List.sum_append, List.sum_cons]
      rw [← add_assoc A'.rule, hr, add_assoc A.rule]

/-! ### Contractions of one dimension -/

theorem sum_indices1 [AddCommMonoid R] (n : Nat) (f : List Nat → R) : ((indices [n]).map f).sum = ∑ x ∈ range n, f [x] := by
  rw [sum_indices, sum_configs_cons']
  exact sum_congr rfl fun x _ => by rw [sum_configs_nil]

theorem dot_right [AddCommGroup G] [DecidableEq G] [Semiring R] {a x : BT G R} {l s m m' k : Dim G} (sa : Sound a) (sx : Sound x)
    (ha : a.shape = [l, s, m]) (hx : x.shape = [m', k]) (hm : Opposite m m') :
    ∃ N r, (∀ fuel, N ≤ fuel → tensordot fuel a x [2] [0] = some (.ok r)) ∧ r.shape = [l, s, k] ∧ r.rule = a.rule + x.rule ∧
      Conserving r.shape r.rule r.blocks ∧ ∀ i c y, i < dimSize l → c < dimSize s → y < dimSize k →
        entry r.shape r.blocks [i, c, y] = ∑ j ∈ range (dimSize m), entry a.shape a.blocks [i, c, j] * entry x.shape x.blocks [j, y] := by
  obtain ⟨r, h1, h2, h3, h4, h5⟩ := C23_returns a x sa.1 sx.1 [2] [0] (by simp) (by simp) [l, s] [k] [m] [m']
    (by rw [ha]; rfl) (by rw [hx]; rfl) (by rw [ha]; rfl) (by rw [hx]; rfl) (.cons hm .nil) sa.2 sx.2
    (.inr ⟨by simp [ha], .inr (by simp [hx])⟩) _ le_rfl
  refine ⟨_, r, fun fuel hf => tensordot_mono hf h1, h2, h3, h4, fun i c y hi hc hy => ?_⟩
  have := h5 [i, c] [y] (.cons hi (.cons hc .nil)) (.cons hy .nil)
  rw [show ([m] : Shape G).map dimSize = [dimSize m] from rfl, sum_indices1] at this
  exact this

theorem dot_left [AddCommGroup G] [DecidableEq G] [Semiring R] {x b : BT G R} {n n' k t r : Dim G} (sx : Sound x) (sb : Sound b)
    (hx : x.shape = [n, k]) (hb : b.shape = [n', t, r]) (hn : Opposite n n') :
    ∃ N z, (∀ fuel, N ≤ fuel → tensordot fuel x b [0] [0] = some (.ok z)) ∧ z.shape = [k, t, r] ∧ z.rule = x.rule + b.rule ∧
      Conserving z.shape z.rule z.blocks ∧ ∀ y c j, y < dimSize k → c < dimSize t → j < dimSize r →
        entry z.shape z.blocks [y, c, j] = ∑ i ∈ range (dimSize n), entry x.shape x.blocks [i, y] * entry b.shape b.blocks [i, c, j] := by
  obtain ⟨z, h1, h2, h3, h4, h5⟩ := C23_returns x b sx.1 sb.1 [0] [0] (by simp) (by simp) [k] [t, r] [n] [n']
    (by rw [hx]; rfl) (by rw [hb]; rfl) (by rw [hx]; rfl) (by rw [hb]; rfl) (.cons hn .nil) sx.2 sb.2
    (.inr ⟨by simp [hx], .inr (by simp [hb])⟩) _ le_rfl
  refine ⟨_, z, fun fuel hf => tensordot_mono hf h1, h2, h3, h4, fun y c j hy hc hj => ?_⟩
  have := h5 [y] [c, j] (.cons hy .nil) (.cons hc (.cons hj .nil))
  rw [show ([n] : Shape G).map dimSize = [dimSize n] from rfl, sum_indices1] at this
  exact this

end BN
end QuantiT
