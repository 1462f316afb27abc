import Verif.Model.BlockTruncate
import Verif.Lemmas.Svd
import Verif.Spec.BlockTruncate
import Mathlib.Tactic.Linarith
/-
What `remove_unit_blocks` does, and helper lemmas on the loop over the blocks of `d`.
-/
namespace QuantiT
namespace BT
open Spec
variable {G R α β : Type}

/-- `remove_unit_blocks` without positions: `j` are the unwanted blocks met so far, in the order in which they lie between the
two iterators. -/
def removed (bad : β → Bool) : Nat → List β → List β → List β
  | 0, _, _ => []
  | _ + 1, _, [] => []
  | n + 1, j, x :: r =>
    if bad x then
      match r with
      | [] => (j ++ [x]).take 1
      | y :: r' => y :: removed bad n ((j ++ [x]).rotate 1) r'
    else x :: removed bad n (j.rotate 1) r

theorem rotate_one_cons (z : β) (j : List β) : (z :: j).rotate 1 = j ++ [z] := by simp

theorem removeLoop_end (bad : β → Bool) (fuel : Nat) (l : List β) (s : Nat) : removeLoop bad fuel l s l.length = (l, s, l.length) := by
  cases fuel <;> simp [removeLoop]

theorem swap_mid (k j r : List β) (z y : β) :
    ((k ++ (z :: j) ++ y :: r).set (k.length + (z :: j).length) z).set k.length y = (k ++ [y]) ++ (j ++ [z]) ++ r := by
  have h1 : (k ++ (z :: j) ++ y :: r).set (k.length + (z :: j).length) z = (k ++ (z :: j)) ++ z :: r := by
    rw [show k.length + (z :: j).length = (k ++ (z :: j)).length by simp, List.set_append_right _ _ le_rfl]
    simp
  rw [h1]
  have h2 : (k ++ (z :: j)) ++ z :: r = k ++ (z :: (j ++ z :: r)) := by simp
  rw [h2, List.set_append_right _ _ le_rfl]
  simp

theorem removeLoop_eq (bad : β → Bool) : ∀ (fuel : Nat) (k j rest : List β), rest.length ≤ fuel →
    ∃ l' s', removeLoop bad fuel (k ++ j ++ rest) k.length (k.length + j.length) = (l', s', l'.length) ∧
      l'.take s' = k ++ removed bad fuel j rest ∧ s' ≤ l'.length := by
  intro fuel
  induction fuel with
  | zero =>
    intro k j rest h
    have : rest = [] := List.length_eq_zero_iff.1 (by omega)
    subst this
    exact ⟨k ++ j, k.length, by simp [removeLoop], by simp [removed], by simp⟩
  | succ fuel ih =>
    intro k j rest h
    cases rest with
    | nil => exact ⟨k ++ j, k.length, by simp [removeLoop], by simp [removed], by simp⟩
    | cons x r =>
      have hx : (k ++ j ++ x :: r)[k.length + j.length]? = some x := by
        rw [show k.length + j.length = (k ++ j).length by simp, List.getElem?_append_right le_rfl]; simp
      have hr : r.length ≤ fuel := by simp at h; omega
      by_cases hb : bad x
      · cases r with
        | nil =>
          -- the last block is unwanted
          simp only [removeLoop, hx, hb, if_true]
          have hn : (k ++ j ++ [x])[k.length + j.length + 1]? = none := by simp [List.getElem?_eq_none_iff]; omega
          have hsw : swapAt (k ++ j ++ [x]) (k.length + j.length + 1) k.length = k ++ j ++ [x] := by
            simp only [swapAt, hn, ite_self]
          have hlen : (k ++ j ++ [x]).length = k.length + j.length + 1 := by simp; omega
          rw [hsw, if_neg (by omega), show k.length + j.length + 1 = (k ++ j ++ [x]).length by omega, removeLoop_end]
          refine ⟨_, _, rfl, ?_, by simp⟩
          simp only [removed, hb, if_true]
          rw [List.append_assoc, List.take_append, List.take_of_length_le (by omega)]
          simp
        | cons y r' =>
          obtain ⟨z, j', hz⟩ : ∃ z j', j ++ [x] = z :: j' := by
            cases j with
            | nil => exact ⟨x, [], rfl⟩
            | cons a b => exact ⟨a, b ++ [x], rfl⟩
          have hl : k ++ j ++ x :: y :: r' = k ++ (z :: j') ++ y :: r' := by rw [← hz]; simp
          have hjl : (z :: j').length = j.length + 1 := by rw [← hz]; simp
          simp only [removeLoop, hx, hb, if_true]
          rw [hl]
          have h1 : (k ++ (z :: j') ++ y :: r')[k.length + j.length + 1]? = some y := by
            rw [show k.length + j.length + 1 = (k ++ (z :: j')).length by rw [List.length_append, hjl]; omega,
              List.getElem?_append_right le_rfl]; simp
          have h2 : (k ++ (z :: j') ++ y :: r')[k.length]? = some z := by
            rw [List.append_assoc, List.getElem?_append_right le_rfl]; simp
          have hsw : swapAt (k ++ (z :: j') ++ y :: r') (k.length + j.length + 1) k.length = (k ++ [y]) ++ (j' ++ [z]) ++ r' := by
            unfold swapAt
            rw [if_pos (by omega), h1, h2]
            dsimp only
            rw [show k.length + j.length + 1 = k.length + (z :: j').length by rw [hjl]; omega, swap_mid]
          have hlen : k.length + j.length + 1 < (k ++ (z :: j') ++ y :: r').length := by
            rw [List.length_append, List.length_append, hjl]; simp; omega
          rw [hsw, if_pos hlen]
          obtain ⟨l', s', e1, e2, e3⟩ := ih (k ++ [y]) (j' ++ [z]) r' (by simp at hr; omega)
          refine ⟨l', s', ?_, ?_, e3⟩
          · rw [← e1]
            have e3 : (j' ++ [z]).length = j.length + 1 := by rw [← hjl]; simp
            rw [e3]
            congr 1
            · simp
            · simp; omega
          · rw [e2]
            simp only [removed, hb, if_true, hz]
            rw [rotate_one_cons]
            simp
      · simp only [removeLoop, hx, hb]
        simp only [Bool.false_eq_true, if_false]
        cases j with
        | nil =>
          have hsw : swapAt (k ++ [] ++ x :: r) (k.length + ([] : List β).length) k.length = k ++ [] ++ x :: r := by
            unfold swapAt
            rw [if_neg (by simp)]
          rw [hsw]
          have hlen : k.length + ([] : List β).length < (k ++ [] ++ x :: r).length := by simp
          rw [if_pos hlen]
          obtain ⟨l', s', e1, e2, e3⟩ := ih (k ++ [x]) [] r hr
          refine ⟨l', s', ?_, ?_, e3⟩
          · rw [← e1]
            congr 1
            · simp
            · simp
            · simp
          · rw [e2]
            simp [removed, hb]
        | cons z j' =>
          have h2 : (k ++ (z :: j') ++ x :: r)[k.length]? = some z := by
            rw [List.append_assoc, List.getElem?_append_right le_rfl]; simp
          have hsw : swapAt (k ++ (z :: j') ++ x :: r) (k.length + (z :: j').length) k.length = (k ++ [x]) ++ (j' ++ [z]) ++ r := by
            unfold swapAt
            rw [if_pos (by simp), hx, h2]
            dsimp only
            rw [swap_mid]
          have hlen : k.length + (z :: j').length < (k ++ (z :: j') ++ x :: r).length := by simp
          rw [hsw, if_pos hlen]
          obtain ⟨l', s', e1, e2, e3⟩ := ih (k ++ [x]) (j' ++ [z]) r hr
          refine ⟨l', s', ?_, ?_, e3⟩
          · rw [← e1]
            congr 1
            · simp
            · simp; omega
          · rw [e2]
            simp [removed, hb]

theorem removeBlocks_eq (bad : β → Bool) (l : List β) : removeBlocks bad l = removed bad l.length [] l := by
  obtain ⟨l', s', e1, e2, e3⟩ := removeLoop_eq bad l.length [] [] l le_rfl
  simp only [List.nil_append, List.length_nil, Nat.add_zero] at e1 e2
  unfold removeBlocks
  rw [e1]
  dsimp only
  rw [show l'.length - (l'.length - s') = s' by omega, e2]

/-- The wanted blocks stay, in order. -/
theorem filter_removed (bad : β → Bool) : ∀ (n : Nat) (j l : List β), l.length ≤ n → (∀ x ∈ j, bad x) →
    (removed bad n j l).filter (fun x => !bad x) = l.filter (fun x => !bad x) := by
  intro n
  induction n using Nat.strong_induction_on with
  | _ n ih =>
  intro j l hl hj
  cases n with
  | zero =>
    have : l = [] := List.length_eq_zero_iff.1 (by omega)
    simp [this, removed]
  | succ n =>
    cases l with
    | nil => simp [removed]
    | cons x r =>
      simp only [removed]
      by_cases hb : bad x
      · simp only [hb, if_true]
        have hall : ∀ y ∈ j ++ [x], bad y := by
          intro y hy
          rcases List.mem_append.1 hy with h | h
          · exact hj y h
          · rw [List.mem_singleton.1 h]; exact hb
        cases r with
        | nil =>
          rw [List.filter_eq_nil_iff.2, List.filter_eq_nil_iff.2]
          · intro y hy; simp [List.mem_singleton.1 hy, hb]
          · intro y hy; simp [hall y (List.mem_of_mem_take hy)]
        | cons y r' =>
          have := ih n (by omega) ((j ++ [x]).rotate 1) r' (by simp at hl; omega) (by
            intro z hz; exact hall z (List.mem_rotate.1 hz))
          simp only [List.filter_cons, hb, this]
          simp
      · simp only [hb, Bool.false_eq_true, if_false]
        have := ih n (by omega) (j.rotate 1) r (by simp at hl; omega) (by
          intro z hz; exact hj z (List.mem_rotate.1 hz))
        simp [List.filter_cons, hb, this]

/-- Nothing is invented. -/
theorem mem_removed (bad : β → Bool) : ∀ (n : Nat) (j l : List β) (x : β), x ∈ removed bad n j l → x ∈ j ∨ x ∈ l := by
  intro n
  induction n with
  | zero => intro j l x h; simp [removed] at h
  | succ n ih =>
    intro j l x h
    cases l with
    | nil => simp [removed] at h
    | cons a r =>
      simp only [removed] at h
      by_cases hb : bad a
      · simp only [hb, if_true] at h
        cases r with
        | nil =>
          have := List.mem_of_mem_take h
          simpa using this
        | cons y r' =>
          rcases List.mem_cons.1 h with h | h
          · simp [h]
          · rcases ih _ _ _ h with h | h
            · rcases List.mem_append.1 (List.mem_rotate.1 h) with h | h
              · exact .inl h
              · simp [List.mem_singleton.1 h]
            · simp [h]
      · simp only [hb, Bool.false_eq_true, if_false] at h
        rcases List.mem_cons.1 h with h | h
        · simp [h]
        · rcases ih _ _ _ h with h | h
          · exact .inl (List.mem_rotate.1 h)
          · simp [h]

/-- Every block is there at most once. -/
theorem removed_subperm (bad : β → Bool) : ∀ (n : Nat) (j l : List β), (removed bad n j l).Subperm (j ++ l) := by
  intro n
  induction n with
  | zero => intro j l; simp only [removed]; exact List.nil_subperm
  | succ n ih =>
    intro j l
    cases l with
    | nil => simp only [removed]; exact List.nil_subperm
    | cons x r =>
      simp only [removed]
      by_cases hb : bad x
      · simp only [hb, if_true]
        cases r with
        | nil => exact (List.take_sublist _ _).subperm
        | cons y r' =>
          refine ((List.subperm_cons y).2 (ih ((j ++ [x]).rotate 1) r')).trans (List.Perm.subperm ?_)
          have h : (y :: ((j ++ [x]).rotate 1 ++ r')).Perm (y :: ((j ++ [x]) ++ r')) := ((List.rotate_perm _ _).append_right _).cons y
          refine h.trans ?_
          rw [show j ++ x :: y :: r' = (j ++ [x]) ++ y :: r' by simp]
          exact List.perm_middle.symm
      · simp only [hb, Bool.false_eq_true, if_false]
        refine ((List.subperm_cons x).2 (ih (j.rotate 1) r)).trans (List.Perm.subperm ?_)
        exact (((List.rotate_perm _ _).append_right _).cons x).trans List.perm_middle.symm

/-- If the last block is wanted, the order is kept. -/
theorem removed_sublist (bad : β → Bool) : ∀ (n : Nat) (j l : List β), l.length ≤ n → (∀ x, l.getLast? = some x → bad x = false) →
    (removed bad n j l).Sublist l ∧ (removed bad n j l).getLast? = l.getLast? := by
  intro n
  induction n with
  | zero =>
    intro j l hl _
    have : l = [] := List.length_eq_zero_iff.1 (by omega)
    simp [this, removed]
  | succ n ih =>
    intro j l hl hlast
    cases l with
    | nil => simp [removed]
    | cons x r =>
      simp only [removed]
      by_cases hb : bad x
      · simp only [hb, if_true]
        cases r with
        | nil =>
          have := hlast x rfl
          rw [hb] at this
          cases this
        | cons y r' =>
          obtain ⟨h1, h2⟩ := ih ((j ++ [x]).rotate 1) r' (by simp at hl; omega) (by
            intro z hz
            refine hlast z ?_
            rw [List.getLast?_cons, List.getLast?_cons, hz]
            rfl)
          refine ⟨(h1.cons_cons y).cons x, ?_⟩
          simp only
          rw [List.getLast?_cons, h2, List.getLast?_cons, List.getLast?_cons]
          rfl
      · simp only [hb, Bool.false_eq_true, if_false]
        obtain ⟨h1, h2⟩ := ih (j.rotate 1) r (by simp at hl; omega) (by
          intro z hz
          refine hlast z ?_
          rw [List.getLast?_cons, hz]
          rfl)
        exact ⟨h1.cons_cons x, by rw [List.getLast?_cons, h2, List.getLast?_cons]⟩

theorem removed_isolated (bad : β → Bool) : ∀ (n : Nat) (j l : List β), l.length ≤ n → Isolated bad l →
    removed bad n j l = l.filter (fun x => !bad x) := by
  intro n
  induction n using Nat.strong_induction_on with
  | _ n ih =>
  intro j l hl hi
  cases n with
  | zero =>
    have : l = [] := List.length_eq_zero_iff.1 (by omega)
    simp [this, removed]
  | succ n =>
    cases l with
    | nil => simp [removed]
    | cons x r =>
      simp only [removed]
      by_cases hb : bad x
      · simp only [hb, if_true]
        obtain ⟨y, r', rfl, hy⟩ := hi.1 hb
        have := ih n (by omega) ((j ++ [x]).rotate 1) r' (by simp at hl; omega) hi.2.2
        simp [List.filter_cons, hb, hy, this]
      · simp only [hb, Bool.false_eq_true, if_false]
        have := ih n (by omega) (j.rotate 1) r (by simp at hl; omega) hi.2
        simp [List.filter_cons, hb, this]

theorem isolated_filter (bad bad' p : β → Bool) (h1 : ∀ x, p x = false → bad x) (h2 : ∀ x, bad' x → bad x) :
    ∀ l : List β, Isolated bad l → Isolated bad' (l.filter p) := by
  intro l
  induction l with
  | nil => intro _; simp [Isolated]
  | cons x r ih =>
    intro hi
    by_cases hp : p x
    · rw [List.filter_cons_of_pos hp]
      refine ⟨fun hb => ?_, ih hi.2⟩
      obtain ⟨y, r', rfl, hy⟩ := hi.1 (h2 x hb)
      have hpy : p y = true := by
        by_contra hc
        have := h1 y (by simpa using hc)
        rw [hy] at this; cases this
      refine ⟨y, r'.filter p, List.filter_cons_of_pos hpy, ?_⟩
      by_contra hc
      have := h2 y (by simpa using hc)
      rw [hy] at this; cases this
    · rw [List.filter_cons_of_neg hp]
      exact ih hi.2

theorem isolated_map {γ : Type} (bad : γ → Bool) (bad' : β → Bool) (f : β → γ) (h : ∀ x, bad (f x) = bad' x) :
    ∀ l : List β, Isolated bad' l → Isolated bad (l.map f) := by
  intro l
  induction l with
  | nil => intro _; simp [Isolated]
  | cons x r ih =>
    intro hi
    refine ⟨fun hb => ?_, ih hi.2⟩
    obtain ⟨y, r', rfl, hy⟩ := hi.1 (by rw [← h]; exact hb)
    exact ⟨f y, r'.map f, rfl, by rw [h]; exact hy⟩

/-! ### The values kept -/

theorem takeWhile_filter [LinearOrder α] (thr : α) : ∀ l : List α, l.Pairwise (· ≥ ·) →
    l.takeWhile (fun x => decide (thr < x)) = l.filter (fun x => decide (thr < x)) := by
  intro l
  induction l with
  | nil => intro _; rfl
  | cons x l ih =>
    intro h
    obtain ⟨h1, h2⟩ := List.pairwise_cons.1 h
    by_cases hx : thr < x
    · simp [List.takeWhile_cons, hx, ih h2]
    · rw [List.takeWhile_cons_of_neg (by simpa using hx), List.filter_cons_of_neg (by simpa using hx)]
      symm
      rw [List.filter_eq_nil_iff]
      intro y hy
      have := h1 y hy
      simp only [decide_eq_true_eq, not_lt]
      exact this.trans (not_lt.1 hx)

theorem setPacked_append (lead : Shape G) (r : Dim G) (j n : Nat) (x : Nat × G) (h : r[j]? = some x) :
    setPacked (lead ++ [r]) (lead.flatten.length + j) n = some (lead ++ [r.set j (n, x.2)]) := by
  induction lead with
  | nil => simp [setPacked, h]
  | cons d s ih =>
    simp only [List.cons_append, setPacked]
    rw [List.getElem?_eq_none (by simp; omega)]
    dsimp only
    rw [show (List.flatten (d :: s)).length + j - d.length = s.flatten.length + j by simp; omega, ih]
    simp

end BT
end QuantiT
