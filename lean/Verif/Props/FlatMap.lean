import Verif.Lemmas.FlatMapFilter
/-
Properties C08–C12: the sorted associative container.
-/
set_option linter.unusedSectionVars false
namespace QuantiT
open Spec
variable {K V : Type _} [LinearOrder K]
namespace FM

/-! ## C09 / C08: effect of one call -/

/-- Where the code does what the interface says.  The `True` cases are unrestricted; `erasePos`,
`eraseRange` and the hints need valid iterators, as in the standard library; the other restrictions are
the regions outside of which the code is wrong (see the `_fails` theorems). -/
def Op.Ok (m : FM K V) : Op K V → Prop
  | .insertOrAssign k _ | .tryEmplace k _ => ∃ e ∈ m, k ≤ e.1
  | .insertHint h k _ | .emplaceHint h k _ => h ≤ m.length ∧ ∀ e ∈ m.drop (h + 1), k ≤ e.1
  | .insertRange xs => m ++ xs ≠ []
  | .merge _ g src => Sorted src ∧ ∀ e ∈ m, (∀ s ∈ src, e.1 < s.1) → g e.2 = e.2
  | .erasePos i => i < m.length
  | .eraseRange i j => i ≤ j ∧ j ≤ m.length
  | .eraseKey k => ∃ e ∈ m, e.1 = k
  | _ => True

/-- What a call does to the partial function the container stands for. `m` is the sequence of elements
before the call (iterators refer to it), `M'` the partial function after it. -/
def SpecStep (m : List (K × V)) : Op K V → (K → Option V) → Prop
  -- insertion without overwriting
  | .insert k v, M' | .emplace k v, M' | .tryEmplace k v, M' | .insertHint _ k v, M' | .emplaceHint _ k v, M'
  | .index v k, M' => ∀ x, M' x = if x = k then some ((lookup m k).getD v) else lookup m x
  -- insertion with overwriting
  | .indexAssign _ k v, M' | .insertOrAssign k v, M' => ∀ x, M' x = if x = k then some v else lookup m x
  -- every key of either, with one of the values given for it
  | .insertRange xs, M' => ∀ x, (M' x = none ↔ ∀ e ∈ m ++ xs, e.1 ≠ x) ∧ (∀ v, M' x = some v → (x, v) ∈ m ++ xs)
  | .merge f g src, M' => ∀ x, M' x = mergeVal f g (lookup m x) (lookup src x)
  | .erasePos i, M' => ∃ e, m[i]? = some e ∧ ∀ x, M' x = if x = e.1 then none else lookup m x
  | .eraseRange i j, M' => ∀ x,
      ((∃ n e, i ≤ n ∧ n < j ∧ m[n]? = some e ∧ e.1 = x) → M' x = none) ∧
      ((¬ ∃ n e, i ≤ n ∧ n < j ∧ m[n]? = some e ∧ e.1 = x) → M' x = lookup m x)
  | .eraseKey k, M' => ∀ x, M' x = if x = k then none else lookup m x
  | .clear, M' => ∀ x, M' x = none

theorem insert_eq {m : FM K V} (hs : Sorted m) (k : K) (v : V) :
    Sorted (insert m k v).1 ∧ (∀ x, lookup (insert m k v).1 x = if x = k then some ((lookup m k).getD v) else lookup m x)
      ∧ (insert m k v).1[(insert m k v).2.1]? = some (k, (lookup m k).getD v)
      ∧ ((insert m k v).2.2 = true ↔ lookup m k = none) := by
  obtain ⟨A, hA, hAs, hlb, hcase⟩ := split_cases hs k
  rcases hcase with rfl | ⟨b, B, rfl, hkb, hbB, hBs⟩ | ⟨w, B, rfl, hkB, hBs⟩
  · have hn : lookup m k = none := lookup_none_of_lt hA
    have hi : insert m k v = (m ++ [(k, v)], m.length, true) := by
      simp [insert, hlb, insertAt]
    rw [hi, hn]
    refine ⟨by simpa using sorted_insert hA (B := []) (by simp) hAs sorted_nil, ?_, by simp, by simp⟩
    intro x
    have := congrFun (lookup_insert (v := v) hA (B := []) (by simp)) x
    simpa [update] using this
  · have hgt := gt_of_chain hkb hbB
    have hn : lookup (A ++ b :: B) k = none := by
      rw [lookup_append, lookup_none_of_lt hA, lookup_none_of_gt hgt]; rfl
    have hne : b.1 ≠ k := by intro h; order
    have hi : insert (A ++ b :: B) k v = (A ++ (k, v) :: b :: B, A.length, true) := by
      simp only [insert, hlb, getElem?_mid, ne_eq, hne, not_false_eq_true, if_true, insertAt_append]
    rw [hi, hn]
    refine ⟨sorted_insert hA hgt hAs (sorted_cons.mpr ⟨hbB, hBs⟩), ?_, by simp, by simp⟩
    intro x
    have := congrFun (lookup_insert (v := v) hA hgt) x
    simpa [update] using this
  · have hsome : lookup (A ++ (k, w) :: B) k = some w := lookup_mid hA
    have hi : insert (A ++ (k, w) :: B) k v = (A ++ (k, w) :: B, A.length, false) := by
      simp only [insert, hlb, getElem?_mid, ne_eq, not_true_eq_false, if_false]
    rw [hi, hsome]
    refine ⟨hs, ?_, by simp, by simp⟩
    intro x
    by_cases h : x = k
    · subst h; simp [hsome]
    · simp [h]

theorem emplace_eq_insert {m : FM K V} (hs : Sorted m) (k : K) (v : V) : emplace m k v = insert m k v := by
  obtain ⟨A, hA, hAs, hlb, hcase⟩ := split_cases hs k
  rcases hcase with rfl | ⟨b, B, rfl, hkb, hbB, hBs⟩ | ⟨w, B, rfl, hkB, hBs⟩
  · simp [insert, emplace, hlb]
  · have hne : b.1 ≠ k := by intro h; order
    simp [insert, emplace, hlb, hkb, hne]
  · simp [insert, emplace, hlb]

theorem index_eq_insert {m : FM K V} (hs : Sorted m) (k : K) (v : V) :
    index v m k = ((insert m k v).1, (insert m k v).2.1) := by
  rw [← emplace_eq_insert hs]
  simp only [index, emplace]
  split
  · rfl
  · split <;> rfl

/-- Overwriting the value at a position whose key is already `k`. -/
theorem set_eq {m : FM K V} (hs : Sorted m) {k : K} {w v : V} {i : Nat} (h : m[i]? = some (k, w)) :
    Sorted (m.set i (k, v)) ∧ ∀ x, lookup (m.set i (k, v)) x = if x = k then some v else lookup m x := by
  obtain ⟨hi, hg⟩ := List.getElem?_eq_some_iff.mp h
  have hm : m = m.take i ++ (k, w) :: m.drop (i + 1) := by
    rw [← hg]; exact split_at hi
  have hlen : i = (m.take i).length := by simp; omega
  generalize hP : m.take i = P at *
  generalize hQ : m.drop (i + 1) = Q at *
  have hset : m.set i (k, v) = P ++ (k, v) :: Q := by rw [hm, set_mid _ _ _ _ _ hlen]
  have hs' := hs
  rw [hm, sorted_append, sorted_cons] at hs'
  obtain ⟨h1, ⟨h2, h3⟩, h4⟩ := hs'
  have hPk : ∀ a ∈ P, a.1 < k := fun a ha => h4 a ha (k, w) (by simp)
  rw [hset]
  refine ⟨sorted_insert hPk h2 h1 h3, ?_⟩
  intro x
  rw [hm, lookup_append, lookup_append, lookup_cons, lookup_cons]
  by_cases hx : x = k
  · subst hx; simp [lookup_none_of_lt hPk]
  · simp [hx, Ne.symm hx]

theorem erase_eq {m : FM K V} (hs : Sorted m) {e : K × V} {i : Nat} (h : m[i]? = some e) :
    Sorted (m.eraseIdx i) ∧ ∀ x, lookup (m.eraseIdx i) x = if x = e.1 then none else lookup m x := by
  obtain ⟨hi, hg⟩ := List.getElem?_eq_some_iff.mp h
  have hm : m = m.take i ++ e :: m.drop (i + 1) := by
    rw [← hg]; exact split_at hi
  have her : m.eraseIdx i = m.take i ++ m.drop (i + 1) := List.eraseIdx_eq_take_drop_succ ..
  generalize hP : m.take i = P at *
  generalize hQ : m.drop (i + 1) = Q at *
  have hs' := hs
  rw [hm, sorted_append, sorted_cons] at hs'
  obtain ⟨h1, ⟨h2, h3⟩, h4⟩ := hs'
  have hPk : ∀ a ∈ P, a.1 < e.1 := fun a ha => h4 a ha e (by simp)
  rw [her]
  refine ⟨sorted_append.mpr ⟨h1, h3, fun x hx y hy => h4 x hx y (by simp [hy])⟩, ?_⟩
  intro x
  rw [hm, lookup_append, lookup_append, lookup_cons]
  by_cases hx : x = e.1
  · subst hx; simp [lookup_none_of_lt hPk, lookup_none_of_gt h2]
  · simp [hx, Ne.symm hx]

/-- With a hint that has no smaller-than-`k` element after its successor, the position found is the
lower bound of the whole container. -/
theorem useHint_ok {m : FM K V} (hs : Sorted m) {h : Nat} {k : K} (hh : h ≤ m.length)
    (hok : ∀ e ∈ m.drop (h + 1), k ≤ e.1) :
    ∃ p, useHint m h k = .ok p ∧ lowerBoundIn m p.1 p.2 k = lowerBound m k := by
  unfold useHint
  by_cases h0 : m.length = 0
  · have : m = [] := List.eq_nil_of_length_eq_zero h0
    subst this; exact ⟨(0, 0), by simp, by simp [lowerBoundIn, lowerBound]⟩
  rw [if_neg h0]
  have key : ∀ h', h' < m.length → (∀ e ∈ m.drop (h' + 1), k ≤ e.1) →
      ∃ p, (match m[h']? with
        | none => Res.ub
        | some e => .ok (if e.1 < k then h' else 0, if k < e.1 then m.length else h' + 1)) = .ok p ∧
        lowerBoundIn m p.1 p.2 k = lowerBound m k := by
    intro h' hlt hok'
    have hget : m[h']? = some m[h'] := List.getElem?_eq_getElem hlt
    rw [hget]
    refine ⟨_, rfl, ?_⟩
    obtain ⟨P, x, Q, hm, hl⟩ : ∃ P x Q, m = P ++ x :: Q ∧ h' = P.length :=
      ⟨m.take h', m[h'], m.drop (h' + 1), split_at hlt, by simp; omega⟩
    have hx : m[h'] = x := by
      have h2 : m[h']? = some x := by rw [hm, hl, getElem?_mid]
      rw [hget] at h2; exact Option.some.inj h2
    have hQ : ∀ e ∈ Q, k ≤ e.1 := by
      intro e he; apply hok' e; rw [hm, hl, ← List.drop_drop, List.drop_left]; simpa using he
    rw [hx]
    subst hl
    have hs' := hs
    rw [hm, sorted_append, sorted_cons] at hs'
    obtain ⟨h1, ⟨h2, h3⟩, h4⟩ := hs'
    by_cases hxk : x.1 < k
    · have : ¬ k < x.1 := by order
      simp only [hxk, this, if_true, if_false, lowerBoundIn]
      have e1 : (m.take (P.length + 1)).drop P.length = [x] := by
        rw [hm, show P ++ x :: Q = (P ++ [x]) ++ Q by simp, show P.length + 1 = (P ++ [x]).length by simp,
          List.take_left, List.drop_left]
      rw [e1]
      have e2 : lowerBound m k = (P ++ [x]).length := by
        rw [hm, show P ++ x :: Q = (P ++ [x]) ++ Q by simp]
        apply lowerBound_append
        · intro a ha
          rcases List.mem_append.mp ha with ha | ha
          · have := h4 a ha x (by simp); order
          · simp only [List.mem_singleton] at ha; subst ha; exact hxk
        · intro b hb; exact hQ b (List.mem_of_mem_head? hb)
      rw [e2]; simp [lowerBound, hxk]
    · simp only [hxk, if_false, lowerBoundIn, List.drop_zero, Nat.zero_add]
      by_cases hkx : k < x.1
      · simp [hkx]
      · simp only [hkx, if_false]
        have hxe : x.1 = k := by order
        have hPk : ∀ a ∈ P, a.1 < k := by intro a ha; have := h4 a ha x (by simp); order
        rw [hm, lowerBound_append hPk (by simp [hxe])]
        rw [show P ++ x :: Q = (P ++ [x]) ++ Q by simp, show P.length + 1 = (P ++ [x]).length by simp,
          List.take_left, lowerBound_append hPk (by simp [hxe])]
  by_cases hend : h = m.length
  · simp only [hend, if_true]
    apply key (m.length - 1) (by omega)
    intro e he
    rw [show m.length - 1 + 1 = m.length by omega, List.drop_length] at he; simp at he
  · simp only [hend, if_false]
    exact key h (by omega) hok

/-- `C12` (where the code honours it): a hinted insertion equals the unhinted one, for every hint that has
no element smaller than the key beyond its successor (in particular every hint at or after the right place,
and the position just before it). -/
theorem C12_hint_partial {m : FM K V} (hs : Sorted m) (h : Nat) (k : K) (v : V) (hh : h ≤ m.length)
    (hok : ∀ e ∈ m.drop (h + 1), k ≤ e.1) :
    insertHint m h k v = .ok ((insert m k v).1, (insert m k v).2.1) ∧
    ∃ pos, emplaceHint m h k v = .ok ((emplace m k v).1, pos, (emplace m k v).2.2) ∧
      ((emplace m k v).2.2 = true → pos = some (emplace m k v).2.1) := by
  obtain ⟨p, hp, hl⟩ := useHint_ok hs hh hok
  constructor
  · simp only [insertHint, hp, bind, Except.bind, hl, insert]
    rcases m[lowerBound m k]? with _ | e
    · rfl
    · by_cases h : e.1 = k <;> simp [h]
  · simp only [emplaceHint, hp, bind, Except.bind, hl, emplace]
    rcases m[lowerBound m k]? with _ | e
    · exact ⟨_, rfl, fun _ => rfl⟩
    · by_cases h : k < e.1
      · simp only [h, if_true]; exact ⟨_, rfl, fun _ => rfl⟩
      · simp only [h, if_false]; exact ⟨_, rfl, fun h => by simp at h⟩

/-- The end() hint and the hint at the lower bound always work. -/
theorem C12_usual_hints_partial {m : FM K V} (hs : Sorted m) (k : K) (v : V) (h : Nat)
    (hh : h = m.length ∨ h = lowerBound m k) :
    insertHint m h k v = .ok ((insert m k v).1, (insert m k v).2.1) ∧
    ∃ pos, emplaceHint m h k v = .ok ((emplace m k v).1, pos, (emplace m k v).2.2) ∧
      ((emplace m k v).2.2 = true → pos = some (emplace m k v).2.1) := by
  obtain ⟨A, B, rfl, hlb, hA, hB, _, _⟩ := split_lb hs k
  rcases hh with rfl | rfl
  · apply C12_hint_partial hs _ _ _ (Nat.le_refl _)
    intro e he; rw [List.drop_eq_nil_of_le (by omega)] at he; simp at he
  · apply C12_hint_partial hs _ _ _ (by rw [hlb]; simp)
    intro e he
    rw [hlb, ← List.drop_drop, List.drop_left] at he
    exact hB e (List.mem_of_mem_drop he)

/-- `C12` is false of the code: for *every* hint that has an element smaller than the key beyond its
successor, `insert(hint, …)` leaves a container that is not sorted any more and `emplace(hint, …)` silently
drops the value. -/
theorem C12_hint_fails {m : FM K V} (hs : Sorted m) (h : Nat) (k : K) (v : V)
    (hbad : ∃ e ∈ m.drop (h + 1), e.1 < k) :
    (∃ r, insertHint m h k v = .ok r ∧ ¬ Sorted r.1) ∧ emplaceHint m h k v = .ok (m, none, false) := by
  obtain ⟨e, he, hek⟩ := hbad
  have hlen : h + 1 < m.length := by
    by_contra hc; rw [List.drop_eq_nil_of_le (by omega)] at he; simp at he
  obtain ⟨P, x, q, Q, hm, hl⟩ : ∃ P x q Q, m = P ++ x :: q :: Q ∧ h = P.length :=
    ⟨m.take h, m[h], m[h+1], m.drop (h + 2), by
      conv_lhs => rw [split_at (m := m) (i := h) (by omega), List.drop_eq_getElem_cons hlen], by simp; omega⟩
  subst hl
  have hs' := hs
  rw [hm, sorted_append, sorted_cons, sorted_cons] at hs'
  obtain ⟨_, ⟨h2, h3, _⟩, _⟩ := hs'
  have hdrop : m.drop (P.length + 1) = q :: Q := by
    rw [hm, ← List.drop_drop, List.drop_left]; rfl
  rw [hdrop] at he
  have hqk : q.1 < k := by
    rcases List.mem_cons.mp he with rfl | he
    · exact hek
    · have := h3 e he; order
  have hxk : x.1 < k := by have := h2 q (by simp); order
  have hnk : ¬ k < x.1 := by order
  have hget : m[P.length]? = some x := by rw [hm, getElem?_mid]
  have hget2 : m[P.length + 1]? = some q := by
    rw [hm, show P ++ x :: q :: Q = (P ++ [x]) ++ q :: Q by simp, show P.length + 1 = (P ++ [x]).length by simp,
      getElem?_mid]
  have huh : useHint m P.length k = .ok (P.length, P.length + 1) := by
    unfold useHint
    rw [if_neg (by omega)]
    have hne : ¬ P.length = m.length := by omega
    simp only [hne, if_false, hget, hxk, hnk, if_true]
  have hlbi : lowerBoundIn m P.length (P.length + 1) k = P.length + 1 := by
    have e1 : (m.take (P.length + 1)).drop P.length = [x] := by
      rw [hm, show P ++ x :: q :: Q = (P ++ [x]) ++ q :: Q by simp, show P.length + 1 = (P ++ [x]).length by simp,
        List.take_left, List.drop_left]
    simp [lowerBoundIn, e1, lowerBound, hxk]
  have hqne : q.1 ≠ k := by intro; order
  have hkq : ¬ k < q.1 := by order
  constructor
  · refine ⟨(insertAt m (P.length + 1) (k, v), P.length + 1), ?_, ?_⟩
    · simp only [insertHint, huh, bind, Except.bind, hlbi, hget2, ne_eq, hqne, not_false_eq_true, if_true]
    · have : insertAt m (P.length + 1) (k, v) = (P ++ [x]) ++ (k, v) :: q :: Q := by
        rw [hm, show P ++ x :: q :: Q = (P ++ [x]) ++ q :: Q by simp, show P.length + 1 = (P ++ [x]).length by simp,
          insertAt_append]
      simp only [this]
      rw [sorted_append, sorted_cons]
      rintro ⟨_, ⟨h5, _⟩, _⟩
      have := h5 q (by simp); simp only at this; order
  · simp only [emplaceHint, huh, bind, Except.bind, hlbi, hget2, hkq, if_false]

/-- Both situations of `C12` occur in a container of four elements. -/
example : insertHint [(1, 10), (3, 30), (5, 50), (7, 70)] 2 4 40
    = .ok ([(1, 10), (3, 30), (4, 40), (5, 50), (7, 70)], 2) := by decide
example : insertHint [(1, 10), (3, 30), (5, 50), (7, 70)] 0 6 60
    = .ok ([(1, 10), (6, 60), (3, 30), (5, 50), (7, 70)], 1) := by decide
example : emplaceHint [(1, 10), (3, 30), (5, 50), (7, 70)] 0 6 60
    = .ok ([(1, 10), (3, 30), (5, 50), (7, 70)], none, false) := by decide

/-! ## C10 -/

/-- `C10` (present key): `erase(key)` removes the entry with that key, nothing else, and returns 1. -/
theorem C10_erase_present_partial {m : FM K V} (hs : Sorted m) {k : K} (hk : ∃ e ∈ m, e.1 = k) :
    ∃ m', eraseKey m k = .ok (m', 1) ∧ Sorted m' ∧ ∀ x, lookup m' x = if x = k then none else lookup m x := by
  obtain ⟨A, hA, hAs, hlb, hcase⟩ := split_cases hs k
  obtain ⟨e, he, hek⟩ := hk
  rcases hcase with rfl | ⟨b, B, rfl, hkb, hbB, hBs⟩ | ⟨w, B, rfl, hkB, hBs⟩
  · have := hA e he; order
  · exfalso
    rcases List.mem_append.mp he with he | he
    · have := hA e he; order
    · have := gt_of_chain hkb hbB e he; order
  · have h := erase_eq hs (getElem?_mid A B (k, w))
    refine ⟨_, ?_, h.1, h.2⟩
    simp only [eraseKey, hlb, getElem?_mid, lt_irrefl, if_false]

/-- `C10` is false of the code for every absent key: the entry with the next larger key is removed and 1 is
returned; when there is no larger key the behaviour is undefined (the past-the-end element is read). -/
theorem C10_erase_absent_fails {m : FM K V} (hs : Sorted m) {k : K} (hk : ∀ e ∈ m, e.1 ≠ k) :
    (eraseKey m k = Res.ub ∧ ∀ e ∈ m, e.1 < k) ∨
    ∃ m' e, eraseKey m k = .ok (m', 1) ∧ e ∈ m ∧ k < e.1 ∧ (∀ e' ∈ m, k < e'.1 → e.1 ≤ e'.1) ∧
      lookup m' e.1 = none ∧ lookup m e.1 = some e.2 := by
  obtain ⟨A, hA, hAs, hlb, hcase⟩ := split_cases hs k
  rcases hcase with rfl | ⟨b, B, rfl, hkb, hbB, hBs⟩ | ⟨w, B, rfl, hkB, hBs⟩
  · left; exact ⟨by simp [eraseKey, hlb], hA⟩
  · right
    have h := erase_eq hs (getElem?_mid A B b)
    refine ⟨(A ++ b :: B).eraseIdx A.length, b, ?_, by simp, hkb, ?_, ?_, lookup_of_mem hs (by simp)⟩
    · have : ¬ b.1 < k := by order
      simp only [eraseKey, hlb, getElem?_mid, this, if_false]
    · intro e' he' hke
      rcases List.mem_append.mp he' with he | he
      · have := hA e' he; order
      · rcases List.mem_cons.mp he with rfl | he
        · exact le_refl _
        · have := hbB e' he; order
    · rw [h.2]; simp
  · exact absurd rfl (hk (k, w) (by simp))

example : eraseKey [(1, 10), (3, 30), (5, 50)] 3 = .ok ([(1, 10), (5, 50)], 1) := by decide
example : eraseKey [(1, 10), (3, 30), (5, 50)] 2 = .ok ([(1, 10), (5, 50)], 1) := by decide
example : eraseKey [(1, 10), (3, 30), (5, 50)] 6 = Res.ub := by decide

/-! ## C11 -/

/-- What the merge computes, for all maps and functors: no undefined behaviour, the sorted union of the
keys, `f` on common keys and `g` on incoming keys as promised; but the receiver's own keys that are smaller
than every incoming key also get `g`. -/
theorem C11_merge_exact_partial (f : V → V → V) (g : V → V) {m src : FM K V} (hm : Sorted m) (hsrc : Sorted src) :
    ∃ r, mergeInsert f g m src = .ok r ∧ Sorted r ∧
      ∀ k, lookup r k = if ∀ e ∈ src, k < e.1 then (lookup m k).map g
        else mergeVal f g (lookup m k) (lookup src k) :=
  mergeInsert_spec f g hm hsrc

/-- `C11` (where the code honours it): as promised whenever `g` leaves alone the receiver's own values below
all incoming keys — e.g. when `g` is the identity, or when the receiver's least key is also incoming. -/
theorem C11_merge_partial (f : V → V → V) (g : V → V) {m src : FM K V} (hm : Sorted m) (hsrc : Sorted src)
    (hg : ∀ e ∈ m, (∀ s ∈ src, e.1 < s.1) → g e.2 = e.2) :
    ∃ r, mergeInsert f g m src = .ok r ∧ Sorted r ∧
      ∀ k, lookup r k = mergeVal f g (lookup m k) (lookup src k) := by
  obtain ⟨r, h1, h2, h3⟩ := mergeInsert_spec f g hm hsrc
  refine ⟨r, h1, h2, ?_⟩
  intro k
  rw [h3]
  split
  · rename_i hall
    rw [lookup_none_of_gt hall]
    cases hk : lookup m k with
    | none => rfl
    | some v => simp [mergeVal, hg _ (mem_of_lookup hk) hall]
  · rfl

/-- With no transformation of the incoming values the merge is always right. -/
theorem C11_merge_id_partial (f : V → V → V) {m src : FM K V} (hm : Sorted m) (hsrc : Sorted src) :
    ∃ r, mergeInsert f id m src = .ok r ∧ Sorted r ∧
      ∀ k, lookup r k = mergeVal f id (lookup m k) (lookup src k) :=
  C11_merge_partial f id hm hsrc (fun _ _ _ => rfl)

/-- `C11` is false of the code: an own value below all incoming keys is passed through `g`. In particular
merging an empty map transforms everything. -/
theorem C11_merge_fails (f : V → V → V) (g : V → V) {m src : FM K V} (hm : Sorted m) (hsrc : Sorted src)
    {e : K × V} (he : e ∈ m) (hlow : ∀ s ∈ src, e.1 < s.1) (hg : g e.2 ≠ e.2) :
    ∃ r, mergeInsert f g m src = .ok r ∧ lookup r e.1 ≠ mergeVal f g (lookup m e.1) (lookup src e.1) := by
  obtain ⟨r, h1, h2, h3⟩ := mergeInsert_spec f g hm hsrc
  refine ⟨r, h1, ?_⟩
  rw [h3, if_pos hlow, lookup_none_of_gt hlow, lookup_of_mem hm he]
  simpa [mergeVal] using hg

/-- The `merge(flat_map&&)` overload: when the source has the capacity for both, the roles of the maps are
exchanged, so `nocollision` is applied to the receiver's own values (and to the incoming ones below all own
keys) instead of the incoming ones. -/
theorem C11_merge_rvalue_fails (f : V → V → V) (g : V → V) {m src : FM K V} {cap : Nat} (hm : Sorted m)
    (hsrc : Sorted src) (hcap : src.length + m.length ≤ cap) :
    ∃ r, mergeRvalue f g cap m src = .ok r ∧ Sorted r ∧
      ∀ k, lookup r k = match lookup m k, lookup src k with
        | some a, some b => some (f a b)
        | some a, none => some (g a)
        | none, some b => some (if ∀ e ∈ m, k < e.1 then g b else b)
        | none, none => none := by
  obtain ⟨r, h1, h2, h3⟩ := mergeInsert_spec (fun a c => f c a) g hsrc hm
  refine ⟨r, by rw [mergeRvalue, if_pos hcap, h1], h2, ?_⟩
  intro k
  rw [h3]
  cases hmk : lookup m k with
  | none => cases lookup src k <;> simp [mergeVal] <;> split <;> simp_all
  | some a =>
    have : ¬ ∀ e ∈ m, k < e.1 := fun h => by have := h _ (mem_of_lookup hmk); simp at this
    rw [if_neg this]
    cases lookup src k <;> simp [mergeVal]

/-- The rvalue overload without spare capacity is the ordinary merge; with `g = id` both branches agree
with the specification. -/
theorem C11_merge_rvalue_partial (f : V → V → V) {m src : FM K V} (cap : Nat) (hm : Sorted m) (hsrc : Sorted src) :
    ∃ r, mergeRvalue f id cap m src = .ok r ∧ Sorted r ∧
      ∀ k, lookup r k = mergeVal f id (lookup m k) (lookup src k) := by
  by_cases hcap : src.length + m.length ≤ cap
  · obtain ⟨r, h1, h2, h3⟩ := C11_merge_rvalue_fails f id hm hsrc hcap
    refine ⟨r, h1, h2, ?_⟩
    intro k; rw [h3]; cases lookup m k <;> cases lookup src k <;> simp [mergeVal]
  · rw [mergeRvalue, if_neg hcap]; exact C11_merge_id_partial f hm hsrc

/-- A merge with interleaved runs, two common keys, and an own key below all incoming ones. -/
example : mergeInsert (· + ·) (· * 100) [(1, 1), (3, 3), (4, 4), (8, 8)] [(3, 30), (5, 50), (8, 80), (9, 90)]
    = .ok [(1, 100), (3, 33), (4, 4), (5, 5000), (8, 88), (9, 9000)] := by decide

/-! ## C08 and C09: histories -/

theorem step_total (m : FM K V) (op : Op K V) : ∃ r, Step m op r := by
  cases op
  case insertRange xs =>
    let s := (m ++ xs).mergeSort (fun a b => !decide (b.1 < a.1))
    refine ⟨_, s, ⟨List.mergeSort_perm _ _, ?_⟩, rfl⟩
    have := List.pairwise_mergeSort (le := fun a b : K × V => !decide (b.1 < a.1))
      (by intro a b c h1 h2; simp at *; order) (by intro a b; simp; exact le_total _ _) (m ++ xs)
    exact this.imp (by intro a b h; simpa using h)
  all_goals exact ⟨_, rfl⟩

/-- Range insertion (and range/initializer-list construction, `m = []`): the keys are those of the container
and of the range, and the value of each key is the fold of the collision functor over all the values given
for it, in some order. -/
theorem C08_insert_range (col : K × V → K × V → V) (m xs s : FM K V) (hs : IsSortOf s (m ++ xs)) (hne : m ++ xs ≠ []) :
    ∃ r, insertUnsorted col s = .ok r ∧ Sorted r ∧
      ∀ k, (lookup r k = none ↔ ∀ e ∈ m ++ xs, e.1 ≠ k) ∧
        ∀ v, lookup r k = some v → ∃ x grp, (x :: grp).Perm ((m ++ xs).filter (fun e => e.1 = k)) ∧
          v = (collide col x grp).2 := by
  have hne' : s ≠ [] := by
    intro h; apply hne; subst h; exact (List.nil_perm.mp hs.1)
  have hd := dedupe_spec col s.length s (Nat.le_refl _) hs.2
  refine ⟨_, filterUnique_eq col hs.2 hne', hd.1, ?_⟩
  intro k
  have hp := hs.1.filter (fun e => decide (e.1 = k))
  rw [hd.2.2 k]
  cases hf : s.filter (fun e => decide (e.1 = k)) with
  | nil =>
    refine ⟨?_, by simp⟩
    rw [hf] at hp
    have := List.nil_perm.mp hp
    rw [List.filter_eq_nil_iff] at this
    simpa using this
  | cons x grp =>
    rw [hf] at hp
    refine ⟨?_, ?_⟩
    · simp only [reduceCtorEq, false_iff, not_forall, not_not]
      have hx : x ∈ (m ++ xs).filter (fun e => decide (e.1 = k)) := hp.mem_iff.mp (by simp)
      rw [List.mem_filter] at hx
      exact ⟨x, hx.1, by simpa using hx.2⟩
    · intro v hv
      exact ⟨x, grp, hp, by simpa using hv.symm⟩

theorem collide_const (x : K × V) (grp : List (K × V)) : collide (fun l _ => l.2) x grp = x := by
  induction grp with
  | nil => rfl
  | cons y g ih => simpa [collide] using ih

/-- `C08`/`C09`, one call: from a sorted container, every call in the region where the code is right
succeeds, leaves a sorted container, and changes the partial function as the interface says. -/
theorem C09_step_partial {m : FM K V} (hs : Sorted m) {op : Op K V} (hok : Op.Ok m op) {r : Res (FM K V)}
    (hstep : Step m op r) : ∃ m', r = .ok m' ∧ Sorted m' ∧ SpecStep m op (lookup m') := by
  cases op with
  | insert k v => exact ⟨_, hstep, (insert_eq hs k v).1, (insert_eq hs k v).2.1⟩
  | emplace k v =>
    refine ⟨_, hstep, ?_⟩; rw [emplace_eq_insert hs]; exact ⟨(insert_eq hs k v).1, (insert_eq hs k v).2.1⟩
  | index d k =>
    refine ⟨_, hstep, ?_⟩; rw [index_eq_insert hs]; exact ⟨(insert_eq hs k d).1, (insert_eq hs k d).2.1⟩
  | indexAssign d k v =>
    refine ⟨_, hstep, ?_⟩
    have h := insert_eq hs k d
    simp only [indexAssign, index_eq_insert hs]
    have h2 := set_eq (v := v) h.1 h.2.2.1
    refine ⟨h2.1, ?_⟩
    intro x; rw [h2.2, h.2.1]; split <;> rfl
  | insertOrAssign k v =>
    obtain ⟨e, he, hke⟩ := hok
    obtain ⟨A, hA, hAs, hlb, hcase⟩ := split_cases hs k
    rcases hcase with rfl | ⟨b, B, rfl, hkb, hbB, hBs⟩ | ⟨w, B, rfl, hkB, hBs⟩
    · have := hA e he; order
    · refine ⟨A ++ (k, v) :: b :: B, ?_, sorted_insert hA (gt_of_chain hkb hbB) hAs (sorted_cons.mpr ⟨hbB, hBs⟩), ?_⟩
      · simp only [Step, insertOrAssign, hlb, getElem?_mid, hkb, if_true, insertAt_append] at hstep
        rw [hstep]; rfl
      · intro x; have := congrFun (lookup_insert (v := v) hA (gt_of_chain hkb hbB)) x; simpa [update] using this
    · have h := set_eq (v := v) hs (getElem?_mid A B (k, w))
      refine ⟨_, ?_, h.1, h.2⟩
      simp only [Step, insertOrAssign, hlb, getElem?_mid, lt_irrefl, if_false] at hstep
      rw [hstep]; rfl
  | tryEmplace k v =>
    obtain ⟨e, he, hke⟩ := hok
    have h := insert_eq hs k v
    refine ⟨_, ?_, h.1, h.2.1⟩
    rw [← emplace_eq_insert hs]
    obtain ⟨A, hA, hAs, hlb, hcase⟩ := split_cases hs k
    rcases hcase with rfl | ⟨b, B, rfl, hkb, hbB, hBs⟩ | ⟨w, B, rfl, hkB, hBs⟩
    · have := hA e he; order
    · simp only [Step, tryEmplace, hlb, getElem?_mid, hkb, if_true] at hstep
      rw [hstep]; simp only [emplace, hlb, getElem?_mid, hkb, if_true]; rfl
    · simp only [Step, tryEmplace, hlb, getElem?_mid, lt_irrefl, if_false] at hstep
      rw [hstep]; simp only [emplace, hlb, getElem?_mid, lt_irrefl, if_false]; rfl
  | insertHint h k v =>
    have h1 := insert_eq hs k v
    refine ⟨_, ?_, h1.1, h1.2.1⟩
    simp only [Step, (C12_hint_partial hs h k v hok.1 hok.2).1] at hstep
    rw [hstep]; rfl
  | emplaceHint h k v =>
    have h1 := insert_eq hs k v
    refine ⟨_, ?_, h1.1, h1.2.1⟩
    obtain ⟨pos, h2, _⟩ := (C12_hint_partial hs h k v hok.1 hok.2).2
    simp only [Step, h2] at hstep
    rw [hstep, ← emplace_eq_insert hs]; rfl
  | insertRange xs =>
    obtain ⟨s, h1, rfl⟩ := hstep
    obtain ⟨r, h2, h3, h4⟩ := C08_insert_range (fun l _ => l.2) m xs s h1 hok
    refine ⟨r, h2, h3, ?_⟩
    intro x
    refine ⟨(h4 x).1, ?_⟩
    intro v hv
    obtain ⟨y, grp, hp, rfl⟩ := (h4 x).2 v hv
    rw [collide_const]
    have hy : y ∈ (m ++ xs).filter (fun e => decide (e.1 = x)) := hp.mem_iff.mp (by simp)
    rw [List.mem_filter] at hy
    have : y.1 = x := by simpa using hy.2
    subst this; exact hy.1
  | merge f g src =>
    obtain ⟨r, h1, h2, h3⟩ := C11_merge_partial f g hs hok.1 hok.2
    exact ⟨r, by rw [hstep, h1], h2, h3⟩
  | erasePos i =>
    have hi : i < m.length := hok
    have hget : m[i]? = some m[i] := List.getElem?_eq_getElem hi
    have h := erase_eq hs hget
    refine ⟨_, ?_, h.1, m[i], hget, h.2⟩
    simp only [Step, erasePos, hi, if_true] at hstep
    exact hstep
  | eraseRange i j =>
    have hij : i ≤ j ∧ j ≤ m.length := hok
    refine ⟨m.take i ++ m.drop j, ?_, ?_, ?_⟩
    · simp only [Step, eraseRange, hij, and_self, if_true] at hstep; exact hstep
    · have : (m.take i ++ m.drop j).Sublist m := by
        conv_rhs => rw [← List.take_append_drop i m]
        apply List.Sublist.append (List.Sublist.refl _)
        have : m.drop j = (m.drop i).drop (j - i) := by rw [List.drop_drop]; congr 1; omega
        rw [this]; exact List.drop_sublist _ _
      exact hs.sublist this
    · intro x
      have hsplit : m = m.take i ++ ((m.take j).drop i ++ m.drop j) := by
        have h1 : m.take i = (m.take j).take i := by rw [List.take_take, Nat.min_eq_left hij.1]
        rw [← List.append_assoc, h1, List.take_append_drop, List.take_append_drop]
      have hmid : (∃ n e, i ≤ n ∧ n < j ∧ m[n]? = some e ∧ e.1 = x) ↔ ∃ e ∈ (m.take j).drop i, e.1 = x := by
        constructor
        · rintro ⟨n, e, h1, h2, h3, h4⟩
          refine ⟨e, ?_, h4⟩
          rw [List.mem_iff_getElem?]
          refine ⟨n - i, ?_⟩
          rw [List.getElem?_drop, List.getElem?_take, if_pos (by omega), ← h3]; congr 1; omega
        · rintro ⟨e, he, h4⟩
          rw [List.mem_iff_getElem?] at he
          obtain ⟨n, hn⟩ := he
          rw [List.getElem?_drop, List.getElem?_take] at hn
          split at hn
          · exact ⟨i + n, e, by omega, by omega, hn, h4⟩
          · simp at hn
      have hs' := hs
      rw [hsplit, sorted_append, sorted_append] at hs'
      obtain ⟨_, ⟨_, _, h5⟩, h6⟩ := hs'
      have hlk : lookup m x = (lookup (m.take i) x).or ((lookup ((m.take j).drop i) x).or (lookup (m.drop j) x)) := by
        conv_lhs => rw [hsplit, lookup_append, lookup_append]
      rw [lookup_append, hmid, hlk]
      constructor
      · rintro ⟨e, he, rfl⟩
        rw [lookup_none_of_lt (fun a ha => h6 a ha e (by simp [he])), lookup_none_of_gt (fun a ha => h5 e he a ha)]
        rfl
      · intro hex
        have : lookup ((m.take j).drop i) x = none := by
          rw [lookup_eq_none]; intro e he hx; exact hex ⟨e, he, hx⟩
        rw [this]; simp
  | eraseKey k =>
    obtain ⟨m', h1, h2, h3⟩ := C10_erase_present_partial hs hok
    refine ⟨m', ?_, h2, h3⟩
    simp only [Step, h1] at hstep
    rw [hstep]; rfl
  | clear => exact ⟨[], hstep, sorted_nil, fun _ => rfl⟩

/-- `C08`: after any finite history (in the region where the code is right) starting from a sorted
container, e.g. the empty one, no call has faulted and the keys are strictly increasing. -/
theorem C08_sorted_history_partial {m : FM K V} (hs : Sorted m) {ops : List (Op K V)} {r : Res (FM K V)}
    (hrun : Run Op.Ok m ops r) : ∃ m', r = .ok m' ∧ Sorted m' := by
  induction hrun with
  | nil m => exact ⟨m, rfl, hs⟩
  | fault hok hstep =>
    obtain ⟨m', h, _⟩ := C09_step_partial hs hok hstep
    cases h
  | step hok hstep _ ih =>
    obtain ⟨m', h, h2, _⟩ := C09_step_partial hs hok hstep
    cases h; exact ih h2

/-- Abstract histories: what the partial function becomes. `l` records the iteration order. -/
inductive SpecRun : List (K × V) → List (Op K V) → List (K × V) → Prop
  | nil (l) : SpecRun l [] l
  | step {l op ops l' l''} : SpecStep l op (lookup l') → Sorted l' → SpecRun l' ops l'' → SpecRun l (op :: ops) l''

/-- `C09`: every history of the container is a history of the abstract finite map. -/
theorem C09_history_partial {m : FM K V} (hs : Sorted m) {ops : List (Op K V)} {r : Res (FM K V)}
    (hrun : Run Op.Ok m ops r) : ∃ m', r = .ok m' ∧ SpecRun m ops m' := by
  induction hrun with
  | nil m => exact ⟨m, rfl, .nil m⟩
  | fault hok hstep =>
    obtain ⟨m', h, _⟩ := C09_step_partial hs hok hstep
    cases h
  | step hok hstep _ ih =>
    obtain ⟨m', h, h2, h3⟩ := C09_step_partial hs hok hstep
    cases h
    obtain ⟨m'', h4, h5⟩ := ih h2
    exact ⟨m'', h4, .step h3 h2 h5⟩

/-- `C09`, queries: `at` returns the associated value and throws `out_of_range` exactly for absent keys;
`find` points at the entry or is `end()`; `contains` tells presence. -/
theorem C09_queries {m : FM K V} (hs : Sorted m) (k : K) :
    at? m k = (match lookup m k with | some v => .ok v | none => Res.throw .outOfRange) ∧
    (match lookup m k with | some v => m[find m k]? = some (k, v) | none => find m k = m.length) ∧
    contains m k = (lookup m k).isSome := by
  obtain ⟨A, hA, hAs, hlb, hcase⟩ := split_cases hs k
  rcases hcase with rfl | ⟨b, B, rfl, hkb, hbB, hBs⟩ | ⟨w, B, rfl, hkB, hBs⟩
  · rw [lookup_none_of_lt hA]
    simp [at?, find, contains, hlb]
  · have hn : lookup (A ++ b :: B) k = none := by
      rw [lookup_append, lookup_none_of_lt hA, lookup_none_of_gt (gt_of_chain hkb hbB)]; rfl
    rw [hn]
    simp [at?, find, contains, hlb, hkb]
  · rw [lookup_mid hA]
    simp [at?, find, contains, hlb]

/-- `C09`, results of `insert`/`emplace`: the returned position is that of the key's entry and the flag tells
whether the key was absent. -/
theorem C09_insert_result {m : FM K V} (hs : Sorted m) (k : K) (v : V) :
    (insert m k v).1[(insert m k v).2.1]? = some (k, (lookup m k).getD v) ∧
    ((insert m k v).2.2 = true ↔ lookup m k = none) ∧ emplace m k v = insert m k v :=
  ⟨(insert_eq hs k v).2.2.1, (insert_eq hs k v).2.2.2, emplace_eq_insert hs k v⟩

/-- `C09` is false of `insert_or_assign` and `try_emplace` for every key larger than all stored keys (in
particular on an empty container): the past-the-end element is read. -/
theorem C09_insert_or_assign_fails {m : FM K V} (hs : Sorted m) {k : K} (v : V) (hk : ∀ e ∈ m, e.1 < k) :
    insertOrAssign m k v = Res.ub ∧ tryEmplace m k v = Res.ub := by
  have hlb : lowerBound m k = m.length := by
    have := lowerBound_append (A := m) (B := []) (k := k) hk (by simp)
    simpa using this
  simp [insertOrAssign, tryEmplace, hlb]

/-- `C08` is false of construction from the content type and of assignment from an initializer list:
duplicate keys survive, and assignment does not sort. -/
theorem C08_content_ctor_fails (k k' : K) (v v' : V) (h : k < k') :
    (∀ s, IsSortOf s [(k, v), (k, v')] → ¬ Sorted (ofContent s)) ∧ ¬ Sorted (assignInitList [(k', v), (k, v')]) := by
  constructor
  · intro s hs hsort
    have hl : s.length = 2 := hs.1.length_eq
    have hmem : ∀ e ∈ s, e.1 = k := by
      intro e he
      have := hs.1.mem_iff.mp he
      simp at this; rcases this with rfl | rfl <;> rfl
    match s, hl with
    | [a, b], _ =>
      have h1 := (sorted_cons.mp hsort).1 b (by simp)
      have h2 := hmem a (by simp); have h3 := hmem b (by simp); order
  · rw [assignInitList, sorted_cons]
    rintro ⟨h1, _⟩
    have := h1 (k, v') (by simp); simp only at this; order

/-- Construction from an empty range formally dereferences `end()`. -/
theorem C08_empty_range_fails : ofRange ([] : FM K V) = Res.ub := rfl

/-- A history through most of the operations that meets the hypotheses of `C08`/`C09`. -/
example : ∃ r, Run Op.Ok ([] : FM Nat Nat)
    [.insert 5 50, .indexAssign 0 3 30, .insertOrAssign 4 40, .merge (· + ·) id [(1, 1), (4, 2), (9, 3)], .eraseKey 5,
     .insertHint 0 2 7, .erasePos 0] (.ok r) ∧ r = [(2, 7), (3, 30), (4, 42), (9, 3)] := by
  refine ⟨_, ?_, rfl⟩
  refine .step (m' := [(5, 50)]) trivial ?_ ?_
  · simp only [Step]; decide
  refine .step (m' := [(3, 30), (5, 50)]) trivial ?_ ?_
  · simp only [Step]; decide
  refine .step (m' := [(3, 30), (4, 40), (5, 50)]) ⟨(5, 50), by simp⟩ ?_ ?_
  · simp only [Step]; decide
  refine .step (m' := [(1, 1), (3, 30), (4, 42), (5, 50), (9, 3)]) ⟨by simp [Sorted], fun _ _ _ => rfl⟩ ?_ ?_
  · simp only [Step]; decide
  refine .step (m' := [(1, 1), (3, 30), (4, 42), (9, 3)]) ⟨(5, 50), by simp⟩ ?_ ?_
  · simp only [Step]; decide
  refine .step (m' := [(1, 1), (2, 7), (3, 30), (4, 42), (9, 3)]) ⟨by simp, by simp⟩ ?_ ?_
  · simp only [Step]; decide
  refine .step (m' := [(2, 7), (3, 30), (4, 42), (9, 3)]) (by simp [Op.Ok]) ?_ (.nil _)
  · simp only [Step]; decide

/-! ## C61, C62 -/

theorem upperBound_append {A B : FM K V} {k : K} (hA : ∀ a ∈ A, a.1 ≤ k) (hB : ∀ b ∈ B.head?, k < b.1) :
    upperBound (A ++ B) k = A.length := by
  unfold upperBound
  rw [List.takeWhile_append_of_pos (by intro a ha; have := hA a ha; simp; exact this)]
  cases B with
  | nil => simp
  | cons b B =>
    have : k < b.1 := hB b (by simp)
    rw [List.takeWhile_cons_of_neg (by simp; exact this)]; simp

/-- `C61` (where the code honours it): `upper_bound` is right as soon as a larger key exists, `lower_bound`
for present keys. -/
theorem C61_bounds_partial {m : FM K V} (hs : Sorted m) (k : K) :
    ((∃ e ∈ m, k < e.1) → ∃ i, upperBoundMethod m k = .ok i ∧ i < m.length ∧
      ∀ n e, m[n]? = some e → (k < e.1 ↔ i ≤ n)) ∧
    ((∃ e ∈ m, e.1 = k) → ∃ i, lowerBoundMethod m k = .ok i ∧ i < m.length ∧
      ∀ n e, m[n]? = some e → (k ≤ e.1 ↔ i ≤ n)) := by
  obtain ⟨A, hA, hAs, hlb, hcase⟩ := split_cases hs k
  have up : ∀ (A B : FM K V) b, m = A ++ b :: B → (∀ a ∈ A, a.1 ≤ k) → k < b.1 → (∀ x ∈ B, b.1 < x.1) →
      ∃ i, upperBoundMethod m k = .ok i ∧ i < m.length ∧ ∀ n e, m[n]? = some e → (k < e.1 ↔ i ≤ n) := by
    rintro A B b rfl hA hkb hB
    refine ⟨A.length, ?_, by simp, ?_⟩
    · have : ¬ b.1 < k := by order
      simp only [upperBoundMethod, upperBound_append hA (B := b :: B) (by simpa using hkb), getElem?_mid, this, if_false]
    · intro n e hn
      by_cases hlt : n < A.length
      · rw [List.getElem?_append_left hlt] at hn
        have := hA e (List.mem_of_getElem? hn)
        constructor
        · intro h; exfalso; order
        · intro h; omega
      · rw [List.getElem?_append_right (by omega)] at hn
        have := gt_of_chain hkb hB e (List.mem_of_getElem? hn)
        exact ⟨fun _ => by omega, fun _ => this⟩
  rcases hcase with rfl | ⟨b, B, rfl, hkb, hbB, hBs⟩ | ⟨w, B, rfl, hkB, hBs⟩
  · constructor
    · rintro ⟨e, he, hk⟩; have := hA e he; exfalso; order
    · rintro ⟨e, he, hk⟩; have := hA e he; exfalso; order
  · constructor
    · intro _; exact up A B b rfl (fun a ha => le_of_lt (hA a ha)) hkb hbB
    · rintro ⟨e, he, hk⟩
      exfalso
      rcases List.mem_append.mp he with he | he
      · have := hA e he; order
      · have := gt_of_chain hkb hbB e he; order
  · constructor
    · rintro ⟨e, he, hk⟩
      cases B with
      | nil =>
        exfalso
        rcases List.mem_append.mp he with he | he
        · have := hA e he; order
        · simp only [List.mem_singleton] at he; subst he; simp at hk
      | cons b B =>
        apply up (A ++ [(k, w)]) B b (by simp) _ (hkB b (by simp)) (sorted_cons.mp hBs).1
        intro a ha
        rcases List.mem_append.mp ha with ha | ha
        · exact le_of_lt (hA a ha)
        · simp only [List.mem_singleton] at ha; subst ha; exact le_refl _
    · intro _
      refine ⟨A.length, ?_, by simp, ?_⟩
      · simp only [lowerBoundMethod, hlb, getElem?_mid, lt_irrefl, if_false]
      · intro n e hn
        by_cases hlt : n < A.length
        · rw [List.getElem?_append_left hlt] at hn
          have := hA e (List.mem_of_getElem? hn)
          constructor
          · intro h; exfalso; order
          · intro h; omega
        · rw [List.getElem?_append_right (by omega)] at hn
          have h2 : k ≤ e.1 := by
            rcases List.mem_cons.mp (List.mem_of_getElem? hn) with rfl | h
            · exact le_refl _
            · exact le_of_lt (hkB e h)
          exact ⟨fun _ => by omega, fun _ => h2⟩

/-- `C61` is false of the code: `lower_bound` returns `end()` for every absent key that has a larger
stored key, and both functions read past the end when there is no larger (or equal) key. -/
theorem C61_bounds_fails {m : FM K V} (hs : Sorted m) (k : K) :
    ((∀ e ∈ m, e.1 ≠ k) → (∃ e ∈ m, k < e.1) → lowerBoundMethod m k = .ok m.length) ∧
    ((∀ e ∈ m, e.1 < k) → lowerBoundMethod m k = Res.ub) ∧
    ((∀ e ∈ m, e.1 ≤ k) → upperBoundMethod m k = Res.ub) := by
  refine ⟨?_, ?_, ?_⟩
  · obtain ⟨A, hA, hAs, hlb, hcase⟩ := split_cases hs k
    rintro hne ⟨e, he, hk⟩
    rcases hcase with rfl | ⟨b, B, rfl, hkb, hbB, hBs⟩ | ⟨w, B, rfl, hkB, hBs⟩
    · have := hA e he; exfalso; order
    · simp only [lowerBoundMethod, hlb, getElem?_mid, hkb, if_true]
    · exact absurd rfl (hne (k, w) (by simp))
  · intro h
    have : lowerBound m k = m.length := by simpa using lowerBound_append (A := m) (B := []) h (by simp)
    simp [lowerBoundMethod, this]
  · intro h
    have : upperBound m k = m.length := by simpa using upperBound_append (A := m) (B := []) h (by simp)
    simp [upperBoundMethod, this]

example : lowerBoundMethod [(1, 0), (3, 0), (5, 0)] 2 = .ok 3 ∧ upperBoundMethod [(1, 0), (3, 0), (5, 0)] 2 = .ok 1 := by
  decide

/-- `C62`. -/
theorem C62_equality [DecidableEq V] {a b : FM K V} (ha : Sorted a) (hb : Sorted b) :
    beq a b = true ↔ ∀ k, lookup a k = lookup b k := by
  have h1 : beq a b = true ↔ a = b := by
    unfold beq
    by_cases hl : a.length = b.length
    · simp only [hl, ne_eq, not_true_eq_false, if_false]
      induction a generalizing b with
      | nil => cases b with
        | nil => simp
        | cons y b => simp at hl
      | cons x a ih => cases b with
        | nil => simp at hl
        | cons y b =>
          simp only [List.zipWith_cons_cons, List.all_cons, id_eq, Bool.and_eq_true, decide_eq_true_eq, List.cons.injEq]
          rw [ih (sorted_cons.mp ha).2 (sorted_cons.mp hb).2 (by simpa using hl)]
    · simp only [ne_eq, hl, not_false_eq_true, if_true, Bool.false_eq_true, false_iff]
      rintro rfl; exact hl rfl
  rw [h1]
  exact ⟨fun h k => by rw [h], fun h => sorted_ext ha hb h⟩

example : beq [(1, 2), (4, 5)] [(1, 2), (4, 5)] = true ∧ beq [(1, 2), (4, 5)] [(1, 2), (4, 6)] = false := by decide

end FM
end QuantiT
