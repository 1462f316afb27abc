import Verif.Lemmas.View
import Verif.Props.BTensor
import Verif.Props.Reshape
import Verif.Props.Tensordot
/-
C30–C33, C35: views at fixed positions, shapes made from tensors, identity, selection rule of a dense matrix.
-/
set_option linter.unusedSectionVars false
namespace QuantiT.BT
open QuantiT.Spec
variable {G R : Type}

/-! ### C31 -/

/-- C31 for entries that are -1 or existing positions: the kept dimensions in order, the rule without the charges of
the fixed positions.  Missing: entries below -1, see `C31_below_fails`; dimensions without sections. -/
theorem C31_shape_from_partial [AddCommGroup G] (t : BT G R) (dims : List Int) (h : Picks t.shape dims)
    (hp : Populated t.shape) :
    shapeFrom t dims = .ok ⟨kept t.shape dims, t.rule - fixedCharge t.shape dims, []⟩ :=
  shapeFrom_eq h hp

/-- C31: a list of the wrong length is rejected. -/
theorem C31_reject_length [AddCommGroup G] (t : BT G R) (dims : List Int) (h : dims.length ≠ t.shape.length) :
    shapeFrom t dims = Res.throw .invalidArgument := by
  rw [shapeFrom, if_pos h]

/-- C31: a position beyond the end of its dimension is rejected. -/
theorem C31_reject_beyond [AddCommGroup G] (t : BT G R) (dims : List Int) (i : Nat) (a : Int) (d : Dim G)
    (ha : dims[i]? = some a) (hd : t.shape[i]? = some d) (h : (dimSize d : Int) ≤ a) :
    shapeFrom t dims = Res.throw .invalidArgument := by
  rw [shapeFrom]
  by_cases hl : dims.length ≠ t.shape.length
  · rw [if_pos hl]
  · rw [if_neg hl, if_pos]
    intro hall
    rw [List.all_eq_true] at hall
    have := hall (a, dimSize d) (by
      rw [sizes_eq]
      refine List.mem_iff_getElem?.mpr ⟨i, ?_⟩
      rw [List.getElem?_zip_eq_some]
      exact ⟨ha, by simp [hd]⟩)
    simp only [Bool.or_eq_true, decide_eq_true_eq] at this
    omega

/-- C31 fails for an entry below -1: it is neither rejected nor treated as -1; the dimension is kept with its
sections emptied. -/
theorem C31_below_fails : shapeFrom (⟨[[(2, 5)]], 5, []⟩ : BT ℤ ℤ) [-2] = .ok ⟨[[(0, 0)]], 5, []⟩ := by rfl

example : shapeFrom ex18 [-1, 2] = .ok ⟨[[(2, 0), (1, 1)]], 1, []⟩ :=
  C31_shape_from_partial ex18 [-1, 2] (by unfold Picks; decide) (by unfold Populated; decide)

/-! ### C30 -/

theorem none_notMem_chF {sh : Shape G} {dims} (h : Picks sh dims) : none ∉ chF sh dims ↔ -1 ∉ dims := by
  induction h using picks_induction with
  | nil => simp [chF]
  | free d ds as _ ih => simp [chF]
  | fixed d ds a as b o s _ h1 h2 _ _ _ ih => simp [chF, h1, ih, Ne.symm h1]

theorem matches_of_agree {sh : Shape G} {dims} (h : Picks sh dims) : ∀ {k : List Nat}, k.length = sh.length → -1 ∉ dims →
    (∀ (i : Nat) (d : Dim G) (a : Int), sh[i]? = some d → dims[i]? = some a → (locate d a.toNat).map Prod.fst = k[i]?) →
    matchesIdx (chF sh dims) k = true := by
  induction h using picks_induction with
  | nil => intro k _ _ _; cases k <;> simp [chF, matchesIdx]
  | free d ds as _ ih => intro k _ h; simp at h
  | fixed d ds a as b o s _ h1 h2 h3 _ _ ih =>
    intro k hl hn ha
    rcases k with _ | ⟨x, k⟩
    · simp at hl
    · have h0 := ha 0 d a rfl rfl
      rw [h3] at h0
      simp only [Option.map_some, List.getElem?_cons_zero, Option.some.injEq] at h0
      simp only [chF, if_neg h1, decompose1_eq h3, matchesIdx, h0, decide_true, Bool.true_and]
      exact ih (by simpa using hl) (fun hm => hn (by simp [hm])) fun i d' a' q1 q2 => by
        simpa using ha (i + 1) d' a' (by simpa using q1) (by simpa using q2)

theorem tailOk_of_agree {sh : Shape G} {dims} (h : Picks sh dims) : ∀ {k : List Nat}, k.length = sh.length →
    (∀ (i : Nat) (d : Dim G) (a : Int), sh[i]? = some d → dims[i]? = some a →
      (∀ j, i ≤ j → dims[j]? ≠ some (-1)) → (locate d a.toNat).map Prod.fst = k[i]?) →
    tailOk (chF sh dims) k := by
  have step : ∀ (sh : Shape G) (dims : List Int) (k : List Nat), Picks sh dims → k.length = sh.length →
      (∀ (i : Nat) (d : Dim G) (a : Int), sh[i]? = some d → dims[i]? = some a →
        (∀ j, i ≤ j → dims[j]? ≠ some (-1)) → (locate d a.toNat).map Prod.fst = k[i]?) →
      (none ∉ chF sh dims → matchesIdx (chF sh dims) k = true) := by
    intro sh dims k hp hl ha hn
    have hn := (none_notMem_chF hp).mp hn
    refine matches_of_agree hp hl hn fun i d a q1 q2 => ha i d a q1 q2 fun j _ hj => hn (List.mem_of_getElem? hj)
  have shift : ∀ (d : Dim G) (sh : Shape G) (a : Int) (dims : List Int) (x : Nat) (k : List Nat),
      (∀ (i : Nat) (d' : Dim G) (a' : Int), (d :: sh)[i]? = some d' → (a :: dims)[i]? = some a' →
        (∀ j, i ≤ j → (a :: dims)[j]? ≠ some (-1)) → (locate d' a'.toNat).map Prod.fst = (x :: k)[i]?) →
      (∀ (i : Nat) (d' : Dim G) (a' : Int), sh[i]? = some d' → dims[i]? = some a' →
        (∀ j, i ≤ j → dims[j]? ≠ some (-1)) → (locate d' a'.toNat).map Prod.fst = k[i]?) := by
    intro d sh a dims x k ha i d' a' q1 q2 q3
    simpa using ha (i + 1) d' a' (by simpa using q1) (by simpa using q2) fun j hj => by
      rcases j with _ | j
      · omega
      · simpa using q3 j (by omega)
  induction h with
  | nil => intro k _ _; cases k <;> trivial
  | @cons d a ds as h1 h2 ih =>
    intro k hl ha
    rcases k with _ | ⟨x, k⟩
    · simp at hl
    · exact ⟨step _ _ _ (.cons h1 h2) hl ha, ih (by simpa using hl) (shift d ds a as x k ha)⟩

theorem view_eq [AddCommGroup G] {t : BT G R} (hc : Conserving t.shape t.rule t.blocks)
    (hp : Populated t.shape) {dims : List Int} (h : Picks t.shape dims) (ht : TrailingAgree t.shape dims t.blocks) :
    ∃ m, viewLoop (kept t.shape dims).length (chF t.shape dims) ((chO t.shape dims).map (Option.map Int.ofNat)) [] t.blocks
        = .ok m ∧ Conserving (kept t.shape dims) (t.rule - fixedCharge t.shape dims) m ∧
      ∀ k, lookup m k = if k.length = (kept t.shape dims).length then
        (lookup t.blocks (fillIdx (chF t.shape dims) k)).map (viewBlk (chO t.shape dims)) else none := by
  have hlen : ∀ kb ∈ t.blocks, kb.1.length = t.shape.length := fun kb hkb => by
    obtain ⟨s, q, _⟩ := hc.block kb.1 kb.2 hkb
    exact (sections_length q).1
  obtain ⟨m, h1, h2, h3⟩ := viewLoop_eq (f := chF t.shape dims) (o := chO t.shape dims)
    (el := (chO t.shape dims).map (Option.map Int.ofNat)) (bl := t.blocks) (m := []) sorted_nil
    (nodup_of_sorted hc.sorted) (fun kb hkb => by
      obtain ⟨s, q1, q2, q3⟩ := hc.block kb.1 kb.2 hkb
      refine ⟨by rw [hlen kb hkb, chF_length h], tailOk_of_agree h (hlen kb hkb) (ht kb hkb), fun hm => ?_⟩
      rw [q3]
      exact (sections_kept h q1 hm).2.2.2)
  rw [chF_count h] at h1 h3
  have h3' : ∀ k, lookup m k = if k.length = (kept t.shape dims).length then
        (lookup t.blocks (fillIdx (chF t.shape dims) k)).map (viewBlk (chO t.shape dims)) else none := fun k => by
    rw [h3, lookup_nil, Option.none_or]
  refine ⟨m, h1, ⟨h2, ?_⟩, h3'⟩
  intro k b hkb
  have hl := lookup_of_mem h2 hkb
  rw [h3'] at hl
  split at hl
  · rename_i hk
    rw [← chF_count h] at hk
    obtain ⟨b', hb', rfl⟩ := Option.map_eq_some_iff.mp hl
    obtain ⟨s, q1, q2, q3⟩ := hc.block _ _ (mem_of_lookup hb')
    have hf := freeOf_fillIdx hk
    obtain ⟨r1, r2, r3, r4⟩ := sections_kept h q1 hf.2
    rw [hf.1] at r1
    refine ⟨_, r1, ?_, ?_⟩
    · rw [← q2, r2]; abel
    · rw [← r3, viewBlk, q3]
  · cases hl

/-- C30 without `preserve_rank`: the kept dimensions, the rule reduced by the charges of the fixed positions, and the
entries of the original at the fixed positions.  Missing: tensors with a block in another section of a fixed dimension
that comes after all kept dimensions (`C30_trailing_fails`). -/
theorem C30_view_partial [AddCommGroup G] [DecidableEq G] [Zero R] (t : BT G R) (hc : Conserving t.shape t.rule t.blocks)
    (hp : Populated t.shape) (dims : List Int) (h : Picks t.shape dims) (ht : TrailingAgree t.shape dims t.blocks) :
    ∃ r, basicCreateView t dims false = .ok r ∧ r.shape = kept t.shape dims ∧
      r.rule = t.rule - fixedCharge t.shape dims ∧ Conserving r.shape r.rule r.blocks ∧
      ∀ e, InRange e (r.shape.map dimSize) → entry r.shape r.blocks e = entry t.shape t.blocks (insertFixed dims e) := by
  obtain ⟨m, h1, h2, h3⟩ := view_eq hc hp h ht
  refine ⟨⟨kept t.shape dims, t.rule - fixedCharge t.shape dims, m⟩, ?_, rfl, rfl, h2, ?_⟩
  · simp only [basicCreateView, shapeFrom_eq h hp, toBlockBasis_fst h, toBlockBasis_snd h, h1, bind, Except.bind,
      Bool.false_eq_true, if_false]
  · intro e he
    obtain ⟨⟨b, o⟩, hl⟩ := locateAll_isSome.mpr he
    have hlen : b.length = (kept t.shape dims).length := by
      obtain ⟨s, q, _⟩ := locateAll_sections hl
      exact (sections_length q).1
    simp only [entry, hl, locateAll_insertFixed h hl, h3, if_pos hlen]
    cases lookup t.blocks (fillIdx (chF t.shape dims) b) <;> rfl

/-- C30: nothing is missing when the last dimension is kept. -/
theorem C30_view_last_kept [AddCommGroup G] [DecidableEq G] [Zero R] (t : BT G R)
    (hc : Conserving t.shape t.rule t.blocks)
    (hp : Populated t.shape) (dims : List Int) (h : Picks t.shape dims) (hlast : dims.getLast? = some (-1)) :
    ∃ r, basicCreateView t dims false = .ok r ∧ r.shape = kept t.shape dims ∧
      r.rule = t.rule - fixedCharge t.shape dims ∧ Conserving r.shape r.rule r.blocks ∧
      ∀ e, InRange e (r.shape.map dimSize) → entry r.shape r.blocks e = entry t.shape t.blocks (insertFixed dims e) := by
  refine C30_view_partial t hc hp dims h fun kb _ i d a _ h2 h3 => absurd ?_ (h3 (dims.length - 1) ?_)
  · rw [← hlast, List.getLast?_eq_getElem?]
  · have := (List.getElem?_eq_some_iff.mp h2).1
    omega

/-- C30 fails in general: fixing the last dimension of a conserving matrix at position 0 returns block (1) as well,
which belongs to another position and breaks the selection rule. -/
theorem C30_trailing_fails : ∃ t r : BT ℤ ℤ, Conserving t.shape t.rule t.blocks ∧ Populated t.shape ∧
    Picks t.shape [-1, 0] ∧ basicCreateView t [-1, 0] false = .ok r ∧
    ¬ Conserving r.shape r.rule r.blocks ∧
    entry r.shape r.blocks [1] ≠ entry t.shape t.blocks (insertFixed [-1, 0] [1]) := by
  refine ⟨⟨[[(1, 0), (1, 1)], [(1, 0), (1, -1)]], 0, [([0, 0], ⟨[1, 1], fun _ => 3⟩), ([1, 1], ⟨[1, 1], fun _ => 4⟩)]⟩,
    _, ⟨by unfold Sorted; decide, ?_⟩, by unfold Populated; decide, by unfold Picks; decide, rfl, ?_, ?_⟩
  · intro k b h
    simp only [List.mem_cons, Prod.mk.injEq, List.not_mem_nil, or_false] at h
    rcases h with ⟨rfl, rfl⟩ | ⟨rfl, rfl⟩
    · exact ⟨[(1, 0), (1, 0)], rfl, rfl, rfl⟩
    · exact ⟨[(1, 1), (1, -1)], rfl, rfl, rfl⟩
  · intro h
    obtain ⟨s, q1, q2, _⟩ := h.block [1] _ (.tail _ (.head _))
    cases q1
    revert q2
    decide
  · decide

example : ∃ r, basicCreateView ex18 [2, -1] false = .ok r ∧ r.shape = [[(1, 0), (2, -1)]] ∧ r.rule = -1 :=
  let ⟨r, h1, h2, h3, _⟩ := C30_view_last_kept ex18 ex18_conserving (by unfold Populated; decide) [2, -1]
    (by unfold Picks; decide) rfl
  ⟨r, h1, h2, h3⟩

theorem tensorProductShape_eq [AddCommGroup G] [DecidableEq G] (a b : BT G R) :
    tensorProductShape a b = .ok ⟨a.shape ++ b.shape, a.rule + b.rule, []⟩ := by
  have ho : ∀ n, outer [] n = List.range n := fun n => by simp [outer]
  simp [tensorProductShape, tdotShape, tdotOut, ho, gather_range, orUb, bind, Except.bind, pure, Except.pure]

/-- The sections chosen in `pinned`. -/
def zeroF (dims : List Int) : List (Option Nat) := dims.map fun a => if a = -1 then none else some 0

theorem pinned_picks [Zero G] {sh : Shape G} {dims} (h : Picks sh dims) :
    Picks (pinned sh dims) (zeroed dims) ∧ kept (pinned sh dims) (zeroed dims) = kept sh dims ∧
      chF (pinned sh dims) (zeroed dims) = zeroF dims ∧ chO (pinned sh dims) (zeroed dims) = zeroF dims := by
  induction h using picks_induction with
  | nil => exact ⟨.nil, rfl, rfl, rfl⟩
  | free d ds as _ ih =>
    obtain ⟨i1, i2, i3, i4⟩ := ih
    refine ⟨.cons (.inl rfl) i1, ?_, ?_, ?_⟩
    · simp only [zeroed, List.map_cons, pinned, if_true, kept]
      exact congrArg _ i2
    · simp only [zeroed, List.map_cons, pinned, if_true, chF, zeroF]
      exact congrArg _ i3
    · simp only [zeroed, List.map_cons, pinned, if_true, chO, zeroF]
      exact congrArg _ i4
  | fixed d ds a as b o s _ h1 h2 _ _ _ ih =>
    obtain ⟨i1, i2, i3, i4⟩ := ih
    simp only [zeroed, List.map_cons, pinned, if_neg h1, kept, chF, chO, zeroF]
    refine ⟨.cons (.inr ⟨le_refl _, by simp [dimSize]⟩) i1, i2, ?_, ?_⟩
    · exact congrArg _ i3
    · exact congrArg _ i4

theorem pinned_sections [AddCommMonoid G] {sh : Shape G} {dims} (h : Picks sh dims) : ∀ {b : List Nat} {s},
    sections (kept sh dims) b = some s →
    ∃ s', sections (pinned sh dims) (fillIdx (zeroF dims) b) = some s' ∧ charge s' = charge s + fixedCharge sh dims ∧
      (s'.map Prod.fst).prod = (s.map Prod.fst).prod ∧
      flat (secCounts (pinned sh dims)) (fillIdx (zeroF dims) b) = flat (secCounts (kept sh dims)) b ∧
      ∀ o : List Nat, o.length = s.length →
        flat (s'.map Prod.fst) (fillIdx (zeroF dims) o) = flat (s.map Prod.fst) o := by
  have hprod : ∀ {sh : Shape G} {dims}, Picks sh dims →
      (secCounts (pinned sh dims)).prod = (secCounts (kept sh dims)).prod := by
    intro sh dims h
    induction h using picks_induction with
    | nil => rfl
    | free d ds as _ ih => simp only [pinned, kept, if_true, secCounts, List.map_cons, List.prod_cons] at ih ⊢; rw [ih]
    | fixed d ds a as b o s _ h1 h2 _ _ _ ih =>
      simp only [pinned, kept, if_neg h1, secCounts, List.map_cons, List.prod_cons, List.length_singleton, one_mul] at ih ⊢
      exact ih
  induction h using picks_induction with
  | nil =>
    intro b s hs
    cases b <;> simp [kept, sections] at hs
    subst hs
    refine ⟨[], rfl, by simp [fixedCharge], rfl, rfl, fun o ho => ?_⟩
    cases o with
    | nil => rfl
    | cons => simp at ho
  | free d ds as hp ih =>
    intro b s hs
    simp only [kept, if_true] at hs
    rcases b with _ | ⟨b, bs⟩
    · simp [sections] at hs
    · obtain ⟨x, xs, g1, g2, rfl⟩ := sections_cons.mp hs
      obtain ⟨s', i1, i2, i3, i4, i5⟩ := ih g2
      refine ⟨x :: s', sections_cons.mpr ⟨_, _, g1, i1, rfl⟩, ?_, ?_, ?_, ?_⟩
      · simp only [charge, List.map_cons, List.sum_cons, fixedCharge, if_true, zero_add] at i2 ⊢
        rw [i2, add_assoc]
      · simp [i3]
      · have hq := hprod hp
        simp only [pinned, zeroF, List.map_cons, if_true, kept, secCounts, fillIdx, flat] at i4 hq ⊢
        rw [i4, hq]
      · intro o ho
        rcases o with _ | ⟨o, os⟩
        · simp at ho
        · have := i5 os (by simpa using ho)
          simp only [zeroF, List.map_cons, if_true, fillIdx, flat] at this ⊢
          rw [this, i3]
  | fixed d ds a as b' o' s' hp h1 h2 h3 h4 _ ih =>
    intro b s hs
    simp only [kept, if_neg h1] at hs
    obtain ⟨s', i1, i2, i3, i4, i5⟩ := ih hs
    refine ⟨(1, chargeAt d a.toNat) :: s', ?_, ?_, ?_, ?_, ?_⟩
    · simp only [zeroF, List.map_cons, if_neg h1, fillIdx, pinned]
      exact sections_cons.mpr ⟨_, _, rfl, i1, rfl⟩
    · simp only [charge, List.map_cons, List.sum_cons, fixedCharge, if_neg h1] at i2 ⊢
      rw [i2, add_left_comm]
    · simp [i3]
    · simp only [pinned, zeroF, List.map_cons, if_neg h1, kept, secCounts, fillIdx, flat, zero_mul, zero_add] at i4 ⊢
      exact i4
    · intro o ho
      have := i5 o ho
      simp only [zeroF, List.map_cons, if_neg h1, fillIdx, flat, zero_mul, zero_add] at this ⊢
      exact this

theorem pinned_prod [AddCommMonoid G] {sh : Shape G} {dims} (h : Picks sh dims) :
    (secCounts (pinned sh dims)).prod = (secCounts (kept sh dims)).prod := by
  induction h using picks_induction with
  | nil => rfl
  | free d ds as _ ih => simp only [pinned, kept, if_true, secCounts, List.map_cons, List.prod_cons] at ih ⊢; rw [ih]
  | fixed d ds a as b o s _ h1 h2 _ _ _ ih =>
    simp only [pinned, kept, if_neg h1, secCounts, List.map_cons, List.prod_cons, List.length_singleton, one_mul] at ih ⊢
    exact ih

/-- A block of `pinned` at the position of a block of `kept` is that block with zeros inserted. -/
theorem pinned_key [AddCommMonoid G] {sh : Shape G} {dims} (h : Picks sh dims) {b b' : List Nat} {s}
    (hs : sections (kept sh dims) b = some s) (hb' : InRange b' (secCounts (pinned sh dims)))
    (hr : flat (secCounts (kept sh dims)) b = flat (secCounts (pinned sh dims)) b') : b' = fillIdx (zeroF dims) b := by
  obtain ⟨s', i1, _, _, i4, _⟩ := pinned_sections h hs
  rw [← unflat_flat hb', ← hr, ← i4, unflat_flat (sections_inRange i1)]

theorem rowMajor_sections {sh : Shape G} {b : List Nat} {s} (h : sections sh b = some s) :
    rowMajor (sh.map List.length) b = flat (secCounts sh) b :=
  rowMajor_eq (List.Forall₂.length_eq (sections_inRange h))

theorem kept_populated {sh : Shape G} {dims} (h : Picks sh dims) (hp : Populated sh) : Populated (kept sh dims) := by
  induction h using picks_induction with
  | nil => exact hp
  | free d ds as _ ih =>
    intro x hx
    simp only [kept, if_true, List.mem_cons] at hx
    rcases hx with rfl | hx
    · exact hp _ (by simp)
    · exact ih (fun d hd => hp d (by simp [hd])) x hx
  | fixed d ds a as b o s _ g1 g2 _ _ _ ih =>
    simp only [kept, if_neg g1]
    exact ih (fun d hd => hp d (by simp [hd]))

theorem pinned_populated [Zero G] {sh : Shape G} {dims} (h : Picks sh dims) (hp : Populated sh) :
    Populated (pinned sh dims) := by
  induction h using picks_induction with
  | nil => exact hp
  | free d ds as _ ih =>
    intro x hx
    simp only [pinned, if_true, List.mem_cons] at hx
    rcases hx with rfl | hx
    · exact hp _ (by simp)
    · exact ih (fun d hd => hp d (by simp [hd])) x hx
  | fixed d ds a as b o s _ g1 g2 _ _ _ ih =>
    intro x hx
    simp only [pinned, if_neg g1, List.mem_cons] at hx
    rcases hx with rfl | hx
    · simp
    · exact ih (fun d hd => hp d (by simp [hd])) x hx

theorem pinned_volumes [AddCommMonoid G] {sh : Shape G} {dims} (h : Picks sh dims) :
    SameVolumes (kept sh dims) (pinned sh dims) := by
  refine ⟨(pinned_prod h).symm, ?_⟩
  intro b b' s s' h1 h2 h3
  rw [rowMajor_sections h1, rowMajor_sections h2] at h3
  have := pinned_key h h1 (sections_inRange h2) h3
  subst this
  obtain ⟨s'', i1, _, i3, _⟩ := pinned_sections h h1
  rw [i1] at h2; cases h2
  exact i3.symm

theorem replicate_picks {sh : Shape G} (hz : ∀ d ∈ sh, 0 < dimSize d) (n : Nat) (d : Dim G) (hn : sh[n]? = some d) :
    Picks sh ((List.replicate sh.length (0 : Int)).set n (-1)) ∧
      kept sh ((List.replicate sh.length (0 : Int)).set n (-1)) = [d] := by
  have h0 : ∀ {sh : Shape G}, (∀ d ∈ sh, 0 < dimSize d) → Picks sh (List.replicate sh.length (0 : Int)) ∧
      kept sh (List.replicate sh.length (0 : Int)) = [] := by
    intro sh
    induction sh with
    | nil => intro _; exact ⟨.nil, rfl⟩
    | cons x sh ih =>
      intro hz
      obtain ⟨i1, i2⟩ := ih fun d hd => hz d (by simp [hd])
      have := hz x (by simp)
      exact ⟨.cons (.inr ⟨le_refl _, by omega⟩) i1, i2⟩
  induction sh generalizing n with
  | nil => simp at hn
  | cons x sh ih =>
    have hz' := fun d hd => hz d (List.mem_cons_of_mem x hd)
    rcases n with _ | n
    · simp only [List.getElem?_cons_zero, Option.some.injEq] at hn
      subst hn
      obtain ⟨i1, i2⟩ := h0 hz'
      refine ⟨.cons (.inl rfl) i1, ?_⟩
      simp only [List.length_cons, List.replicate_succ, List.set_cons_zero, kept, if_true, i2]
    · obtain ⟨i1, i2⟩ := ih hz' n (by simpa using hn)
      have := hz x (by simp)
      exact ⟨.cons (.inr ⟨le_refl _, by omega⟩) i1, i2⟩

theorem populated_of_pos {sh : Shape G} (hz : ∀ d ∈ sh, 0 < dimSize d) : Populated sh := by
  rintro d hd rfl
  exact absurd (hz _ hd) (by simp [dimSize])

theorem rankPreservingShape_eq [AddCommGroup G] [DecidableEq G] {t : BT G R} (hz : ∀ d ∈ t.shape, 0 < dimSize d)
    {dims : List Int} (h : Picks t.shape dims) :
    rankPreservingShape (chF t.shape dims) t = .ok ⟨pinned t.shape dims, t.rule, []⟩ := by
  have key : ∀ {suf : Shape G} {dims : List Int}, Picks suf dims → ∀ (pre : Shape G) (out : BT G R), t.shape = pre ++ suf →
      ∃ r, ((chF suf dims).zip (List.range' pre.length (chF suf dims).length)).foldlM (rankStep t) out =
        .ok ⟨out.shape ++ pinned suf dims, r, if suf = [] then out.blocks else []⟩ := by
    intro suf dims hp
    induction hp using picks_induction with
    | nil => intro pre out _; exact ⟨out.rule, by simp [chF, pinned]; rfl⟩
    | free d ds as hp ih =>
      intro pre out hpre
      have hn : t.shape[pre.length]? = some d := by rw [hpre]; simp
      obtain ⟨q1, q2⟩ := replicate_picks hz _ _ hn
      simp only [chF, if_true, List.length_cons, List.range'_succ, List.zip_cons_cons, List.foldlM_cons,
        rankStep,
        shapeFrom_eq q1 (populated_of_pos hz), bind, Except.bind, tensorProductShape_eq, q2]
      obtain ⟨r, hr⟩ := ih (pre ++ [d]) ⟨out.shape ++ [d], out.rule + (t.rule - fixedCharge t.shape
        ((List.replicate t.shape.length (0 : Int)).set pre.length (-1))), []⟩ (by rw [hpre]; simp)
      refine ⟨r, ?_⟩
      rw [List.length_append, List.length_singleton] at hr
      refine hr.trans ?_
      simp [pinned]
    | fixed d ds a as b o s hp h1 h2 h3 h4 _ ih =>
      intro pre out hpre
      have hb : b < d.length := (List.getElem?_eq_some_iff.mp h4).1
      have hd : ((t.shape.drop pre.length).flatten)[b]? = some s := by
        rw [hpre, List.drop_left, List.flatten_cons, List.getElem?_append_left hb, h4]
      simp only [chF, if_neg h1, decompose1_eq h3, List.length_cons, List.range'_succ, List.zip_cons_cons,
        List.foldlM_cons, rankStep, hd, bind, Except.bind, tensorProductShape_eq]
      obtain ⟨r, hr⟩ := ih (pre ++ [d]) ⟨out.shape ++ [[(1, s.2)]], out.rule + 0, []⟩ (by rw [hpre]; simp)
      refine ⟨r, ?_⟩
      rw [List.length_append, List.length_singleton] at hr
      refine hr.trans ?_
      simp [pinned, h1, chargeAt_eq h3 h4]
  obtain ⟨r, hr⟩ := key h [] ⟨[], 0, []⟩ rfl
  rw [rankPreservingShape, List.range_eq_range']
  simp only [List.length_nil] at hr
  simp only [hr, bind, Except.bind]
  simp [setRule]

/-- C30 with `preserve_rank`: every fixed dimension becomes a single section of size 1 with the charge of the fixed
position, the selection rule stays, and the entries are those of the original at the fixed positions. -/
theorem C30_view_preserve_rank_partial [AddCommGroup G] [DecidableEq G] [Zero R] (t : BT G R)
    (hc : Conserving t.shape t.rule t.blocks) (hz : ∀ d ∈ t.shape, 0 < dimSize d) (dims : List Int)
    (h : Picks t.shape dims) (ht : TrailingAgree t.shape dims t.blocks) :
    ∃ r, basicCreateView t dims true = .ok r ∧ r.shape = pinned t.shape dims ∧ r.rule = t.rule ∧
      Conserving r.shape r.rule r.blocks ∧
      ∀ e, InRange e ((kept t.shape dims).map dimSize) →
        entry r.shape r.blocks (insertFixed (zeroed dims) e) = entry t.shape t.blocks (insertFixed dims e) := by
  have hp := populated_of_pos hz
  obtain ⟨m, h1, h2, h3⟩ := view_eq hc hp h ht
  obtain ⟨v, v1, v2, v3, v4, v5⟩ := C30_view_partial t hc hp dims h ht
  have hv : v = ⟨kept t.shape dims, t.rule - fixedCharge t.shape dims, m⟩ := by
    simp only [basicCreateView, shapeFrom_eq h hp, toBlockBasis_fst h, toBlockBasis_snd h, h1, bind, Except.bind,
      Bool.false_eq_true, if_false] at v1
    cases v1; rfl
  subst hv
  obtain ⟨p1, p2, p3, p4⟩ := pinned_picks h
  have hpk := kept_populated h hp
  have hpp := pinned_populated h hp
  obtain ⟨r, r1, r2, r3, r4, r5⟩ := C26_reshape_as_overwrite
    (⟨kept t.shape dims, t.rule - fixedCharge t.shape dims, m⟩ : BT G R) ⟨pinned t.shape dims, t.rule, []⟩
    h2 hpk hpp (pinned_volumes h) (by
      intro kb hkb b' hr hb'
      obtain ⟨s, q1, q2, _⟩ := h2.block kb.1 kb.2 hkb
      replace hr := (rowMajor_sections q1).symm.trans (hr.trans (rowMajor_eq (List.Forall₂.length_eq hb')))
      have := pinned_key h q1 hb' hr
      subst this
      obtain ⟨s', i1, i2, _⟩ := pinned_sections h q1
      exact ⟨s', i1, by rw [i2, q2]; abel⟩)
  refine ⟨r, ?_, r2, r3, r4, ?_⟩
  · simp only [basicCreateView, shapeFrom_eq h hp, toBlockBasis_fst h, toBlockBasis_snd h, h1, bind, Except.bind,
      if_true, rankPreservingShape_eq hz h]
    exact r1
  · intro e he
    rw [r2, ← v5 e he]
    have hr2 : r.shape = pinned t.shape dims := r2
    rw [hr2] at r5
    refine r5 e _ ?_
    obtain ⟨⟨b, o⟩, hl⟩ := locateAll_isSome.mpr he
    obtain ⟨s, q1, q2⟩ := locateAll_sections hl
    obtain ⟨s', i1, _, _, i4, i5⟩ := pinned_sections h q1
    have hl' := locateAll_insertFixed p1 (by rw [p2]; exact hl)
    rw [p3, p4] at hl'
    have ho := List.Forall₂.length_eq q2
    rw [List.length_map] at ho
    refine ⟨b, o, s, _, _, s', hl, q1, hl', i1, ?_, ?_⟩
    · exact (rowMajor_sections q1).trans (i4.symm.trans (rowMajor_sections i1).symm)
    · rw [rowMajor_eq (by simpa using ho), rowMajor_eq, i5 o ho]
      have := locateAll_offset hl' i1
      exact List.Forall₂.length_eq this

example : ∃ r, basicCreateView ex18 [2, -1] true = .ok r ∧ r.shape = [[(1, 1)], [(1, 0), (2, -1)]] ∧ r.rule = 0 :=
  let ⟨r, h1, h2, h3, _⟩ := C30_view_preserve_rank_partial ex18 ex18_conserving (by decide) [2, -1]
    (by unfold Picks; decide) (fun kb _ i d a _ h2 h3 => absurd rfl (h3 1 (by
      have := (List.getElem?_eq_some_iff.mp h2).1; simp at this; omega)))
  ⟨r, h1, h2, h3⟩

end QuantiT.BT
