import Verif.Model.View
import Verif.Spec.View
import Verif.Lemmas.Reshape2
import Verif.Props.FlatMap
import Mathlib.Tactic.Abel
/-
Lemmas about shape_from and basic_create_view.
-/
set_option linter.unusedSectionVars false
namespace QuantiT.BT
open QuantiT.Spec
variable {G R : Type}

/-- Sections of the fixed positions. -/
def chF : Shape G → List Int → List (Option Nat)
  | d :: ds, a :: as => (if a = -1 then none else some (decompose1 d a.toNat).1) :: chF ds as
  | _, _ => []

/-- Offsets of the fixed positions. -/
def chO : Shape G → List Int → List (Option Nat)
  | d :: ds, a :: as => (if a = -1 then none else some (decompose1 d a.toNat).2) :: chO ds as
  | _, _ => []

theorem picks_fixed {d : Dim G} {a : Int} {b o : Nat} (h1 : 0 ≤ a) (h : locate d a.toNat = some (b, o)) :
    a = -1 ∨ (0 ≤ a ∧ a < (dimSize d : Int)) := by
  have : a.toNat < dimSize d := locate_isSome.mp ⟨_, h⟩
  omega

@[elab_as_elim]
theorem picks_induction {P : ∀ (sh : Shape G) (dims : List Int), Picks sh dims → Prop} (nil : P [] [] .nil)
    (free : ∀ d ds as (h : Picks ds as), P ds as h → P (d :: ds) (-1 :: as) (.cons (.inl rfl) h))
    (fixed : ∀ (d : Dim G) ds (a : Int) as b o s (h : Picks ds as), a ≠ -1 → (h0 : 0 ≤ a) →
      (hl : locate d a.toNat = some (b, o)) →
      d[b]? = some s → o < s.1 → P ds as h → P (d :: ds) (a :: as) (.cons (picks_fixed h0 hl) h)) :
    ∀ {sh dims} (h : Picks sh dims), P sh dims h := by
  intro sh dims h
  induction h with
  | nil => exact nil
  | @cons d a ds as h1 h2 ih =>
    by_cases ha : a = -1
    · subst ha; exact free d ds as h2 ih
    · have h1 : 0 ≤ a ∧ a < (dimSize d : Int) := by tauto
      obtain ⟨⟨b, o⟩, hp⟩ := locate_isSome.mpr (show a.toNat < dimSize d by omega)
      obtain ⟨s, q1, q2, _⟩ := locate_iff.mp hp
      exact fixed d ds a as b o s h2 ha h1.1 hp q1 q2 ih

theorem picks_length {sh : Shape G} {dims : List Int} (h : Picks sh dims) : dims.length = sh.length :=
  (List.Forall₂.length_eq h).symm

theorem toBlockBasis_fst {sh : Shape G} {dims} (h : Picks sh dims) : (toBlockBasis sh dims).map Prod.fst = chF sh dims := by
  induction h using picks_induction with
  | nil => rfl
  | free d ds as _ ih => simp [toBlockBasis, chF, ih]
  | fixed d ds a as b o s _ h1 h2 _ _ _ ih => simp [toBlockBasis, chF, ih, h1, not_lt.mpr h2]

theorem toBlockBasis_snd {sh : Shape G} {dims} (h : Picks sh dims) :
    (toBlockBasis sh dims).map Prod.snd = (chO sh dims).map (Option.map Int.ofNat) := by
  induction h using picks_induction with
  | nil => rfl
  | free d ds as _ ih => simp [toBlockBasis, chO, ih]
  | fixed d ds a as b o s _ h1 h2 _ _ _ ih => simp [toBlockBasis, chO, ih, h1, not_lt.mpr h2]

theorem negCounts_eq {sh : Shape G} {dims} (h : Picks sh dims) : negCounts sh dims = (kept sh dims).map List.length := by
  induction h using picks_induction with
  | nil => rfl
  | free d ds as _ ih => simpa [negCounts, kept] using ih
  | fixed d ds a as b o s _ h1 h2 _ _ _ ih => simpa [negCounts, kept, h1, not_lt.mpr h2] using ih

theorem freeSections_eq {sh : Shape G} {dims} (h : Picks sh dims) : freeSections sh dims = (kept sh dims).flatten := by
  induction h using picks_induction with
  | nil => rfl
  | free d ds as _ ih => simpa [freeSections, kept] using ih
  | fixed d ds a as b o s _ h1 h2 _ _ _ ih => simpa [freeSections, kept, h1, not_lt.mpr h2] using ih

theorem unpack_eq {α : Type} (l : List (List α)) : unpack (l.map List.length) l.flatten = l := by
  induction l with
  | nil => rfl
  | cons a l ih => simp [unpack, ih]

theorem chargeAt_eq [Zero G] {d : Dim G} {e b o s} (h : locate d e = some (b, o)) (hs : d[b]? = some s) :
    chargeAt d e = s.2 := by
  simp [chargeAt, h, hs]

theorem shapeFromRule_eq [AddCommGroup G] {sh : Shape G} {dims} (h : Picks sh dims) (hp : Populated sh) (r : G) :
    shapeFromRule sh dims r = .ok (r - fixedCharge sh dims) := by
  induction h using picks_induction generalizing r with
  | nil => simp [shapeFromRule, fixedCharge]
  | free d ds as _ ih =>
    have hd := hp d (by simp)
    rcases d with _ | ⟨s, d⟩
    · exact absurd rfl hd
    · simp only [shapeFromRule, fixedCharge]
      simp [ih (fun d hd => hp d (by simp [hd]))]
  | fixed d ds a as b o s _ h1 h2 h3 h4 _ ih =>
    have hb : b < d.length := (List.getElem?_eq_some_iff.mp h4).1
    simp only [shapeFromRule, fixedCharge, if_neg (not_lt.mpr h2), decompose1_eq h3, if_neg h1, chargeAt_eq h3 h4,
      List.flatten_cons]
    rw [List.getElem?_append_left hb, h4]
    simp only [ih (fun d hd => hp d (by simp [hd]))]
    congr 1
    abel

theorem sizes_check {sh : Shape G} {dims : List Int} (h : Picks sh dims) :
    (dims.zip (sizes sh)).all (fun as => decide (as.1 < (as.2 : Int)) || decide (as.1 = -1)) = true := by
  rw [sizes_eq]
  induction h using picks_induction with
  | nil => rfl
  | free d ds as _ ih => simpa using ih
  | fixed d ds a as b o s _ h1 h2 h3 h4 _ ih =>
    have : a.toNat < dimSize d := locate_isSome.mp ⟨_, h3⟩
    have : a < (dimSize d : Int) := by omega
    simp only [List.map_cons, List.zip_cons_cons, List.all_cons, ih, this]
    simp

theorem shapeFrom_eq [AddCommGroup G] {t : BT G R} {dims} (h : Picks t.shape dims) (hp : Populated t.shape) :
    shapeFrom t dims = .ok ⟨kept t.shape dims, t.rule - fixedCharge t.shape dims, []⟩ := by
  rw [shapeFrom, if_neg (by simp [picks_length h]), if_neg (by rw [sizes_check h]; simp)]
  simp only [shapeFromRule_eq h hp, bind, Except.bind, negCounts_eq h, freeSections_eq h, ← List.length_flatten,
    Nat.sub_self, List.replicate_zero, List.append_nil, unpack_eq]

theorem chF_count {sh : Shape G} {dims} (h : Picks sh dims) : (chF sh dims).count none = (kept sh dims).length := by
  induction h using picks_induction with
  | nil => rfl
  | free d ds as _ ih => simp [chF, kept, ih]
  | fixed d ds a as b o s _ h1 h2 _ _ _ ih => simp [chF, kept, ih, h1]

theorem chF_length {sh : Shape G} {dims} (h : Picks sh dims) : (chF sh dims).length = sh.length := by
  induction h using picks_induction with
  | nil => rfl
  | free d ds as _ ih => simp [chF, ih]
  | fixed d ds a as b o s _ h1 h2 _ _ _ ih => simp [chF, ih]

theorem locateAll_insertFixed {sh : Shape G} {dims} (h : Picks sh dims) {e b o : List Nat}
    (hl : locateAll (kept sh dims) e = some (b, o)) :
    locateAll sh (insertFixed dims e) = some (fillIdx (chF sh dims) b, fillIdx (chO sh dims) o) := by
  induction h using picks_induction generalizing e b o with
  | nil =>
    cases e <;> simp [kept, locateAll] at hl
    obtain ⟨rfl, rfl⟩ := hl; rfl
  | free d ds as _ ih =>
    simp only [kept, if_true] at hl
    rcases e with _ | ⟨e, es⟩
    · simp [locateAll] at hl
    · obtain ⟨x, y, xs, ys, h1, h2, h3⟩ := locateAll_cons.mp hl
      cases h3
      simp only [insertFixed, if_true, chF, chO]
      exact locateAll_cons.mpr ⟨x, y, _, _, h1, ih h2, rfl⟩
  | fixed d ds a as b' o' s _ h1 h2 h3 _ _ ih =>
    simp only [kept, if_neg h1] at hl
    simp only [insertFixed, if_neg h1, chF, chO, fillIdx]
    rw [decompose1_eq h3]
    exact locateAll_cons.mpr ⟨_, _, _, _, h3, ih hl, rfl⟩

theorem sections_kept [AddCommMonoid G] {sh : Shape G} {dims} (h : Picks sh dims) {k : List Nat} {s}
    (hs : sections sh k = some s) (hm : matchesIdx (chF sh dims) k = true) :
    sections (kept sh dims) (freeOf (chF sh dims) k) = some (freeOf (chF sh dims) s) ∧
      charge s = charge (freeOf (chF sh dims) s) + fixedCharge sh dims ∧
      freeOf (chO sh dims) (s.map Prod.fst) = (freeOf (chF sh dims) s).map Prod.fst ∧
      wrapIndices ((chO sh dims).map (Option.map Int.ofNat)) (s.map Prod.fst) = .ok (chO sh dims) := by
  induction h using picks_induction generalizing k s with
  | nil =>
    cases k <;> simp [sections] at hs
    subst hs
    simp [kept, chF, chO, freeOf, sections, charge, fixedCharge, wrapIndices]
  | free d ds as _ ih =>
    rcases k with _ | ⟨k, ks⟩
    · simp [sections] at hs
    · obtain ⟨x, xs, h1, h2, rfl⟩ := sections_cons.mp hs
      simp only [chF, if_true, matchesIdx] at hm
      obtain ⟨i1, i2, i3, i4⟩ := ih h2 hm
      simp only [chF, chO, if_true, kept, freeOf, List.map_cons, Option.map_none, wrapIndices, i4, i3,
        fixedCharge, zero_add]
      refine ⟨sections_cons.mpr ⟨_, _, h1, i1, rfl⟩, ?_, trivial, rfl⟩
      simp only [charge, List.map_cons, List.sum_cons] at i2 ⊢
      rw [i2, add_assoc]
  | fixed d ds a as b o s' _ g1 g2 g3 g4 g5 ih =>
    rcases k with _ | ⟨k, ks⟩
    · simp [sections] at hs
    · obtain ⟨x, xs, h1, h2, rfl⟩ := sections_cons.mp hs
      simp only [chF, if_neg g1, matchesIdx, Bool.and_eq_true, decide_eq_true_eq, decompose1_eq g3] at hm
      obtain ⟨rfl, hm⟩ := hm
      obtain ⟨i1, i2, i3, i4⟩ := ih h2 hm
      rw [h1] at g4; cases g4
      simp only [chF, chO, if_neg g1, kept, freeOf, List.map_cons, Option.map_some, wrapIndices, i4, i3,
        fixedCharge, chargeAt_eq g3 h1, decompose1_eq g3]
      refine ⟨i1, ?_, trivial, ?_⟩
      · simp only [charge, List.map_cons, List.sum_cons] at i2 ⊢
        rw [i2, add_left_comm]
      · simp only [wrapIndex, Int.ofNat_eq_natCast]
        have h0 : ¬ ((o : Int) < 0) := by omega
        simp only [h0, if_false]
        rw [if_pos (by omega)]
        rfl

theorem fillIdx_length {f : List (Option Nat)} {o : List Nat} (h : o.length = f.count none) : (fillIdx f o).length = f.length := by
  induction f generalizing o with
  | nil => cases o <;> rfl
  | cons a f ih =>
    rcases a with _ | a
    · rcases o with _ | ⟨x, o⟩
      · simp at h
      · simp [fillIdx, ih (o := o) (by simpa using h)]
    · simp [fillIdx, ih (o := o) (by simpa using h)]

theorem freeOf_fillIdx {f : List (Option Nat)} {o : List Nat} (h : o.length = f.count none) :
    freeOf f (fillIdx f o) = o ∧ matchesIdx f (fillIdx f o) = true := by
  induction f generalizing o with
  | nil => cases o with
    | nil => exact ⟨rfl, rfl⟩
    | cons => simp at h
  | cons a f ih =>
    rcases a with _ | a
    · rcases o with _ | ⟨x, o⟩
      · simp at h
      · simp [fillIdx, freeOf, matchesIdx, ih (o := o) (by simpa using h)]
    · simp [fillIdx, freeOf, matchesIdx, ih (o := o) (by simpa using h)]

theorem fillIdx_freeOf {f : List (Option Nat)} {k : List Nat} (h : k.length = f.length) (hm : matchesIdx f k = true) :
    fillIdx f (freeOf f k) = k ∧ (freeOf f k).length = f.count none := by
  induction f generalizing k with
  | nil => cases k with
    | nil => exact ⟨rfl, rfl⟩
    | cons => simp at h
  | cons a f ih =>
    rcases k with _ | ⟨x, k⟩
    · simp at h
    · rcases a with _ | a
      · simp only [matchesIdx] at hm
        simp [fillIdx, freeOf, ih (k := k) (by simpa using h) hm]
      · simp only [matchesIdx, Bool.and_eq_true, decide_eq_true_eq] at hm
        obtain ⟨rfl, hm⟩ := hm
        simp [fillIdx, freeOf, ih (k := k) (by simpa using h) hm]

theorem freeOf_length {α : Type} {f : List (Option Nat)} {k : List α} (h : k.length = f.length) :
    (freeOf f k).length = f.count none := by
  induction f generalizing k with
  | nil => cases k <;> simp [freeOf] at h ⊢
  | cons a f ih =>
    rcases k with _ | ⟨x, k⟩
    · simp at h
    · rcases a with _ | a <;> simp [freeOf, ih (k := k) (by simpa using h)]

/-- Where there is no free dimension left, the index agrees with the chosen sections. -/
def tailOk : List (Option Nat) → List Nat → Prop
  | f :: fs, i :: is => (none ∉ f :: fs → matchesIdx (f :: fs) (i :: is) = true) ∧ tailOk fs is
  | _, _ => True

theorem viewFilter_eq {f : List (Option Nat)} : ∀ {k : List Nat} {cur : Nat}, k.length = f.length → tailOk f k →
    (viewFilter (f.count none) cur k f).1 = matchesIdx f k ∧
      (matchesIdx f k = true → (viewFilter (f.count none) cur k f).2 = freeOf f k) := by
  induction f with
  | nil => intro k cur h _; cases k <;> simp [viewFilter, matchesIdx, freeOf] at h ⊢
  | cons a f ih =>
    intro k cur h ht
    rcases k with _ | ⟨x, k⟩
    · simp at h
    · have hl : k.length = f.length := by simpa using h
      rcases a with _ | a
      · rw [List.count_cons_self]
        have := ih (cur := 0) hl ht.2
        refine ⟨this.1, fun hm => ?_⟩
        simp only [matchesIdx] at hm
        simp only [viewFilter, freeOf, this.2 hm]
      · rw [List.count_cons_of_ne (by simp)]
        rcases hc : f.count none with _ | n
        · have hno : none ∉ f := List.count_eq_zero.mp hc
          have hm := ht.1 (by simp [hno])
          refine ⟨by rw [hm]; rfl, fun _ => ?_⟩
          have := freeOf_length (f := some a :: f) h
          rw [List.count_cons_of_ne (by simp), hc] at this
          rw [List.eq_nil_of_length_eq_zero this]; rfl
        · simp only [viewFilter, matchesIdx, freeOf]
          by_cases hx : x = a
          · subst hx
            have := ih (cur := x) hl ht.2
            rw [hc] at this
            simpa using this
          · have hx' : ¬ a = x := fun h => hx h.symm
            simp [hx, hx']

/-- The block a view takes from a stored block. -/
def viewBlk (o : List (Option Nat)) (b : Blk R) : Blk R := ⟨freeOf o b.dims, fun i => b.f (fillIdx o i)⟩

theorem viewLoop_eq {f o : List (Option Nat)} {el : List (Option Int)} : ∀ {bl m : FM (List Nat) (Blk R)},
    Sorted m → (bl.map Prod.fst).Nodup →
    (∀ kb ∈ bl, kb.1.length = f.length ∧ tailOk f kb.1 ∧ (matchesIdx f kb.1 = true → wrapIndices el kb.2.dims = .ok o)) →
    ∃ m', viewLoop (f.count none) f el m bl = .ok m' ∧ Sorted m' ∧
      ∀ k, lookup m' k = (lookup m k).or
        (if k.length = f.count none then (lookup bl (fillIdx f k)).map (viewBlk o) else none) := by
  intro bl
  induction bl with
  | nil =>
    intro m hs _ _
    exact ⟨m, rfl, hs, fun k => by simp [lookup_nil]⟩
  | cons kb bl ih =>
    intro m hs hn hh
    obtain ⟨h1, h2, h3⟩ := hh kb (by simp)
    have hf := viewFilter_eq (cur := 0) h1 h2
    rw [List.map_cons, List.nodup_cons] at hn
    simp only [viewLoop, hf.1]
    have hnot : ∀ k : List Nat, k.length = f.count none → ¬ kb.1 = fillIdx f k →
        lookup (kb :: bl) (fillIdx f k) = lookup bl (fillIdx f k) := fun k _ hk => by
      rw [lookup_cons, if_neg hk]
    by_cases hm : matchesIdx f kb.1 = true
    · rw [if_pos hm]
      have hi : indexEl el kb.2 = .ok (viewBlk o kb.2) := by
        simp only [indexEl, h3 hm, bind, Except.bind]; rfl
      have hins := (FM.C12_usual_hints_partial hs (freeOf f kb.1) (viewBlk o kb.2) m.length (.inl rfl)).1
      have hie := FM.insert_eq hs (freeOf f kb.1) (viewBlk o kb.2)
      rw [hf.2 hm, hi]
      simp only [bind, Except.bind, hins]
      obtain ⟨m', q1, q2, q3⟩ := ih (m := (FM.insert m (freeOf f kb.1) (viewBlk o kb.2)).1) hie.1 hn.2
        (fun kb' h => hh kb' (by simp [h]))
      refine ⟨m', q1, q2, fun k => ?_⟩
      rw [q3, hie.2.1]
      by_cases hk : k = freeOf f kb.1
      · subst hk
        have := fillIdx_freeOf h1 hm
        rw [if_pos rfl, if_pos this.2, if_pos this.2, this.1, lookup_cons, if_pos rfl]
        cases lookup m (freeOf f kb.1) <;> rfl
      · rw [if_neg hk]
        congr 1
        by_cases hk' : k.length = f.count none
        · rw [if_pos hk', if_pos hk', hnot k hk']
          intro h
          apply hk
          rw [h, (freeOf_fillIdx hk').1]
        · rw [if_neg hk', if_neg hk']
    · rw [if_neg hm]
      obtain ⟨m', q1, q2, q3⟩ := ih hs hn.2 (fun kb' h => hh kb' (by simp [h]))
      refine ⟨m', q1, q2, fun k => ?_⟩
      rw [q3]
      congr 1
      by_cases hk : k.length = f.count none
      · rw [if_pos hk, if_pos hk, hnot k hk]
        rintro h
        rw [h] at hm
        exact hm (freeOf_fillIdx hk).2
      · rw [if_neg hk, if_neg hk]

end QuantiT.BT
