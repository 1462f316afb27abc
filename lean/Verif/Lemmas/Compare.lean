import Verif.Model.Compare
import Verif.Lemmas.BTensor
import Verif.Lemmas.BlockModels
import Verif.Lemmas.BlockDmrg
/-
The loops of `allclose` (Model/Compare.lean), and the element that a position in a block stands for.
-/
namespace QuantiT
namespace BT
open Spec FM
variable {G K R : Type}

/-- The element at an offset in a section. -/
theorem locate_at : ∀ (d : Dim G) (b o : Nat) (s : Nat × G), d[b]? = some s → o < s.1 →
    locate d (dimSize (d.take b) + o) = some (b, o)
  | [], b, o, s, h, _ => by simp at h
  | s0 :: d, 0, o, s, h, ho => by
    simp only [List.getElem?_cons_zero, Option.some.injEq] at h
    subst h
    simp [locate, dimSize, ho]
  | s0 :: d, b + 1, o, s, h, ho => by
    simp only [List.getElem?_cons_succ] at h
    have ih := locate_at d b o s h ho
    have hd : dimSize ((s0 :: d).take (b + 1)) = s0.1 + dimSize (d.take b) := by simp [dimSize]
    simp only [locate]
    rw [if_neg (by omega), hd]
    have : s0.1 + dimSize (d.take b) + o - s0.1 = dimSize (d.take b) + o := by omega
    rw [this, ih]; rfl

/-- Every position in a block of the grid is that of an element. -/
theorem locateAll_at : ∀ {shape : Shape G} {k o : List Nat} {secs}, sections shape k = some secs →
    InRange o (secs.map Prod.fst) → ∃ e, locateAll shape e = some (k, o)
  | [], [], o, secs, h, ho => by
    simp only [sections, Option.some.injEq] at h
    subst h
    cases ho
    exact ⟨[], rfl⟩
  | [], _ :: _, _, _, h, _ => by simp [sections] at h
  | _ :: _, [], _, _, h, _ => by simp [sections] at h
  | d :: ds, b :: bs, o, secs, h, ho => by
    simp only [sections] at h
    split at h
    · rename_i s r h1 h2
      simp only [Option.some.injEq] at h
      subst h
      cases ho with
      | cons hx hxs =>
        rename_i x xs
        obtain ⟨es, hes⟩ := locateAll_at h2 hxs
        exact ⟨(dimSize (d.take b) + x) :: es, by simp only [locateAll, locate_at d b x s h1 hx, hes]⟩
    · cases h

/-- When the block of one index passes the test of `allclose`. -/
def PairClose [Field K] [LinearOrder K] (rtol atol : K) : Option (Blk K) → Option (Blk K) → Prop
  | some x, some y => ∀ o, InRange o x.dims → CloseNum rtol atol (x.f o) (y.f o)
  | some x, none => ∀ o, InRange o x.dims → CloseNum rtol atol (x.f o) 0
  | none, some y => ∀ o, InRange o y.dims → CloseNum rtol atol (y.f o) 0
  | none, none => True

theorem blkClose_spec [Field K] [LinearOrder K] (rtol atol : K) (x y : Blk K) (hd : x.dims = y.dims) :
    ∃ c, blkClose rtol atol x y = .ok c ∧ (c = true ↔ ∀ o, InRange o x.dims → CloseNum rtol atol (x.f o) (y.f o)) := by
  unfold blkClose
  rw [← hd, BN.bcDims_self]
  refine ⟨_, rfl, ?_⟩
  rw [List.all_eq_true]
  constructor
  · intro h o ho
    have := h o (mem_allIdx.mpr ho)
    rw [BN.clip_inRange ho] at this
    simpa [CloseNum, ← hd] using this
  · intro h o ho
    have ho' := mem_allIdx.mp ho
    rw [BN.clip_inRange ho']
    exact decide_eq_true (h o ho')

theorem forall_lookup_cons {V : Type} {P : Option V → Option V → Prop} {k : List Nat} {v : V}
    {as bs : FM (List Nat) V} (h1 : ∀ e ∈ as, k < e.1) (h2 : ∀ e ∈ bs, k < e.1) :
    (∀ x, P (lookup ((k, v) :: as) x) (lookup bs x)) ↔ P (some v) none ∧ ∀ x, x ≠ k → P (lookup as x) (lookup bs x) := by
  constructor
  · intro h
    refine ⟨?_, ?_⟩
    · have := h k
      rwa [lookup_cons, if_pos rfl, lookup_none_of_gt h2] at this
    · intro x hx
      have := h x
      rwa [lookup_cons, if_neg (fun h => hx h.symm)] at this
  · rintro ⟨h3, h4⟩ x
    by_cases hx : x = k
    · subst hx; rw [lookup_cons, if_pos rfl, lookup_none_of_gt h2]; exact h3
    · rw [lookup_cons, if_neg (fun h => hx h.symm)]; exact h4 x hx

theorem closeLoop_spec [Field K] [LinearOrder K] (rtol atol : K) : ∀ (n : Nat) (as bs : FM (List Nat) (Blk K)),
    as.length + bs.length ≤ n → Sorted as → Sorted bs →
    (∀ k x y, lookup as k = some x → lookup bs k = some y → x.dims = y.dims) →
    ∃ c, closeLoop rtol atol n as bs = .ok c ∧ (c = true ↔ ∀ k, PairClose rtol atol (lookup as k) (lookup bs k)) := by
  intro n
  induction n with
  | zero =>
    intro as bs hn _ _ _
    have h1 : as = [] := List.eq_nil_of_length_eq_zero (by omega)
    have h2 : bs = [] := List.eq_nil_of_length_eq_zero (by omega)
    subst h1; subst h2
    exact ⟨true, rfl, by simp [lookup, PairClose]⟩
  | succ n ih =>
    intro as bs hn ha hb hd
    -- one block of a list alone at its index, below everything else
    have step : ∀ (c : Bool) (q : Res Bool) (P Q : Prop), (c = true ↔ P) → (∃ c', q = .ok c' ∧ (c' = true ↔ Q)) →
        ∃ r, (if c then q else .ok false : Res Bool) = .ok r ∧ (r = true ↔ P ∧ Q) := by
      intro c q P Q h1 ⟨c', h2, h3⟩
      cases c with
      | true => exact ⟨c', by simp [h2], by rw [h3]; simp [h1.mp rfl]⟩
      | false => exact ⟨false, rfl, by simp; intro hp; exact absurd (h1.mpr hp) (by simp)⟩
    rcases as with _ | ⟨⟨ka, xa⟩, as⟩ <;> rcases bs with _ | ⟨⟨kb, xb⟩, bs⟩
    · exact ⟨true, rfl, by simp [lookup, PairClose]⟩
    · have hs := sorted_cons.mp hb
      obtain ⟨c, h1, h2⟩ := blkClose_spec rtol atol xb (zerosBlk xb) rfl
      obtain ⟨r, h3, h4⟩ := step c _ _ _ h2 (ih [] bs (by simp at hn ⊢; omega) ha hs.2 (by simp [lookup]))
      refine ⟨r, by simp only [closeLoop, h1, bind, Except.bind]; exact h3, ?_⟩
      rw [h4]
      constructor
      · rintro ⟨h5, h6⟩ x
        by_cases hx : x = kb
        · subst hx; rw [lookup_cons, if_pos rfl]; exact h5
        · rw [lookup_cons, if_neg (fun h => hx h.symm)]; exact h6 x
      · intro h
        refine ⟨?_, ?_⟩
        · have := h kb; rw [lookup_cons, if_pos rfl] at this; exact this
        · intro x
          by_cases hx : x = kb
          · subst hx; rw [lookup_none_of_gt hs.1]; simp [lookup, PairClose]
          · have := h x; rw [lookup_cons, if_neg (fun h => hx h.symm)] at this; exact this
    · have hs := sorted_cons.mp ha
      obtain ⟨c, h1, h2⟩ := blkClose_spec rtol atol xa (zerosBlk xa) rfl
      obtain ⟨r, h3, h4⟩ := step c _ _ _ h2 (ih as [] (by simp at hn ⊢; omega) hs.2 hb (by simp [lookup]))
      refine ⟨r, by simp only [closeLoop, h1, bind, Except.bind]; exact h3, ?_⟩
      rw [h4]
      constructor
      · rintro ⟨h5, h6⟩ x
        by_cases hx : x = ka
        · subst hx; rw [lookup_cons, if_pos rfl]; exact h5
        · rw [lookup_cons, if_neg (fun h => hx h.symm)]; exact h6 x
      · intro h
        refine ⟨?_, ?_⟩
        · have := h ka; rw [lookup_cons, if_pos rfl] at this; exact this
        · intro x
          by_cases hx : x = ka
          · subst hx; rw [lookup_none_of_gt hs.1]; simp [lookup, PairClose]
          · have := h x; rw [lookup_cons, if_neg (fun h => hx h.symm)] at this; exact this
    · have hsa := sorted_cons.mp ha
      have hsb := sorted_cons.mp hb
      rcases lt_trichotomy ka kb with hlt | heq | hgt
      · obtain ⟨c, h1, h2⟩ := blkClose_spec rtol atol xa (zerosBlk xa) rfl
        have hlow : ∀ e ∈ (kb, xb) :: bs, ka < e.1 := by
          intro e he
          rcases List.mem_cons.mp he with rfl | he
          · exact hlt
          · exact hlt.trans (hsb.1 e he)
        obtain ⟨r, h3, h4⟩ := step c _ _ _ h2 (ih as ((kb, xb) :: bs) (by simp at hn ⊢; omega) hsa.2 hb (by
          intro k x y hx hy
          refine hd k x y ?_ hy
          rw [lookup_cons, if_neg, hx]
          intro h
          simp only at h
          rw [← h, lookup_none_of_gt hsa.1] at hx; cases hx))
        refine ⟨r, by simp only [closeLoop, if_pos hlt, h1, bind, Except.bind]; exact h3, ?_⟩
        rw [h4]
        constructor
        · rintro ⟨h5, h6⟩ x
          by_cases hx : x = ka
          · subst hx
            rw [lookup_cons, if_pos rfl, lookup_none_of_gt hlow]; exact h5
          · rw [lookup_cons, if_neg (fun h => hx h.symm)]; exact h6 x
        · intro h
          refine ⟨?_, ?_⟩
          · have := h ka; rw [lookup_cons, if_pos rfl, lookup_none_of_gt hlow] at this; exact this
          · intro x
            by_cases hx : x = ka
            · subst hx; rw [lookup_none_of_gt hsa.1, lookup_none_of_gt hlow]; trivial
            · have := h x; rw [lookup_cons, if_neg (fun h => hx h.symm)] at this; exact this
      · subst heq
        obtain ⟨c, h1, h2⟩ := blkClose_spec rtol atol xa xb (hd ka xa xb (by rw [lookup_cons, if_pos rfl]) (by rw [lookup_cons, if_pos rfl]))
        obtain ⟨r, h3, h4⟩ := step c _ _ _ h2 (ih as bs (by simp at hn ⊢; omega) hsa.2 hsb.2 (by
          intro k x y hx hy
          have hk : ka ≠ k := by
            intro h
            rw [← h, lookup_none_of_gt hsa.1] at hx; cases hx
          exact hd k x y (by rw [lookup_cons, if_neg hk, hx]) (by rw [lookup_cons, if_neg hk, hy])))
        refine ⟨r, by simp only [closeLoop, if_neg (lt_irrefl _), h1, bind, Except.bind]; exact h3, ?_⟩
        rw [h4]
        constructor
        · rintro ⟨h5, h6⟩ x
          by_cases hx : x = ka
          · subst hx
            rw [lookup_cons, if_pos rfl, lookup_cons, if_pos rfl]; exact h5
          · rw [lookup_cons, if_neg (fun h => hx h.symm), lookup_cons, if_neg (fun h => hx h.symm)]; exact h6 x
        · intro h
          refine ⟨?_, ?_⟩
          · have := h ka; rw [lookup_cons, if_pos rfl, lookup_cons, if_pos rfl] at this; exact this
          · intro x
            by_cases hx : x = ka
            · subst hx; rw [lookup_none_of_gt hsa.1, lookup_none_of_gt hsb.1]; trivial
            · have := h x
              rw [lookup_cons, if_neg (fun h => hx h.symm), lookup_cons, if_neg (fun h => hx h.symm)] at this; exact this
      · obtain ⟨c, h1, h2⟩ := blkClose_spec rtol atol xb (zerosBlk xb) rfl
        have hlow : ∀ e ∈ (ka, xa) :: as, kb < e.1 := by
          intro e he
          rcases List.mem_cons.mp he with rfl | he
          · exact hgt
          · exact hgt.trans (hsa.1 e he)
        obtain ⟨r, h3, h4⟩ := step c _ _ _ h2 (ih ((ka, xa) :: as) bs (by simp at hn ⊢; omega) ha hsb.2 (by
          intro k x y hx hy
          refine hd k x y hx ?_
          rw [lookup_cons, if_neg, hy]
          intro h
          simp only at h
          rw [← h, lookup_none_of_gt hsb.1] at hy; cases hy))
        refine ⟨r, by simp only [closeLoop, if_neg (not_lt.mpr hgt.le), if_pos hgt, h1, bind, Except.bind]; exact h3, ?_⟩
        rw [h4]
        constructor
        · rintro ⟨h5, h6⟩ x
          by_cases hx : x = kb
          · subst hx
            rw [lookup_none_of_gt hlow, lookup_cons, if_pos rfl]; exact h5
          · rw [lookup_cons (kb, xb), if_neg (fun h => hx h.symm)]; exact h6 x
        · intro h
          refine ⟨?_, ?_⟩
          · have := h kb; rw [lookup_none_of_gt hlow, lookup_cons, if_pos rfl] at this; exact this
          · intro x
            by_cases hx : x = kb
            · subst hx; rw [lookup_none_of_gt hsb.1, lookup_none_of_gt hlow]; trivial
            · have := h x; rw [lookup_cons (kb, xb), if_neg (fun h => hx h.symm)] at this; exact this

end BT
end QuantiT
