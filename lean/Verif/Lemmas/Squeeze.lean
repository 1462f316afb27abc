import Verif.Model.Bmm
import Verif.Spec.Broadcast
import Verif.Lemmas.Broadcast
import Verif.Props.View
/-
Dimensions of one element: adding and removing them.
-/
set_option linter.unusedSectionVars false
namespace QuantiT.BT
open QuantiT.Spec
variable {G R : Type}

/-- Dimensions are kept, or have one element and are fixed there. -/
def UnitPicks (sh : Shape G) (dims : List Int) : Prop :=
  List.Forall₂ (fun d a => a = -1 ∨ (a = 0 ∧ OneElement d)) sh dims

theorem oneElement_eq {d : Dim G} (h : OneElement d) : ∃ q, d = [(1, q)] := by
  unfold OneElement at h
  match d, h with
  | [], h => simp at h
  | [s], h =>
    simp only [List.map_cons, List.map_nil, List.cons.injEq, and_true] at h
    exact ⟨s.2, by rw [← h]⟩
  | _ :: _ :: _, h => simp at h

theorem UnitPicks.picks {sh : Shape G} {dims} (h : UnitPicks sh dims) : Picks sh dims := by
  unfold UnitPicks at h
  unfold Picks
  refine h.imp ?_
  rintro d a (rfl | ⟨rfl, h⟩)
  · exact .inl rfl
  · obtain ⟨q, rfl⟩ := oneElement_eq h
    exact .inr ⟨le_refl _, by simp [dimSize]⟩

theorem UnitPicks.pinned [Zero G] {sh : Shape G} {dims} (h : UnitPicks sh dims) : pinned sh dims = sh ∧ zeroed dims = dims := by
  unfold UnitPicks at h
  induction h with
  | nil => exact ⟨rfl, rfl⟩
  | @cons d a sh dims h _ ih =>
    rcases h with rfl | ⟨rfl, h⟩
    · refine ⟨?_, ?_⟩
      · simp only [Spec.pinned, if_true, ih.1]
      · have := ih.2; simp only [zeroed] at this ⊢; simp [this]
    · obtain ⟨q, rfl⟩ := oneElement_eq h
      refine ⟨?_, ?_⟩
      · simp only [Spec.pinned, ih.1]
        simp [chargeAt, locate]
      · have := ih.2; simp only [zeroed] at this ⊢; simp [this]

theorem UnitPicks.trailing [AddCommMonoid G] {sh : Shape G} {dims} (h : UnitPicks sh dims) {rule : G} {bl : FM (List Nat) (Blk R)}
    (hc : Conserving sh rule bl) : TrailingAgree sh dims bl := by
  rintro ⟨k, v⟩ hkb i d a hd ha hno
  obtain ⟨secs, s1, _⟩ := hc.block _ _ hkb
  obtain ⟨i1, hi1⟩ := List.getElem?_eq_some_iff.1 hd
  obtain ⟨i2, hi2⟩ := List.getElem?_eq_some_iff.1 ha
  have := (List.forall₂_iff_get.1 h).2 i i1 i2
  simp only [List.get_eq_getElem, hi1, hi2] at this
  rcases this with rfl | ⟨rfl, h1⟩
  · exact absurd ha (hno i (le_refl _))
  · obtain ⟨q, rfl⟩ := oneElement_eq h1
    have hr := sections_inRange s1
    have hil : i < k.length := by rw [(sections_length s1).1]; exact i1
    have hlt := (List.forall₂_iff_get.1 hr).2 i hil (by simp [secCounts]; exact i1)
    simp only [List.get_eq_getElem, secCounts, List.getElem_map, hi1, List.length_singleton, Nat.lt_one_iff] at hlt
    simp [locate, List.getElem?_eq_getElem hil, hlt]

/-- An element of the kept dimensions is at the same place among all of them. -/
theorem pinned_aligned [AddCommMonoid G] {sh : Shape G} {dims} (h : Picks sh dims) {e : List Nat}
    (he : InRange e ((kept sh dims).map dimSize)) : Aligned (kept sh dims) (pinned sh dims) e (insertFixed (zeroed dims) e) := by
  obtain ⟨p1, p2, p3, p4⟩ := pinned_picks h
  obtain ⟨⟨b, o⟩, hl⟩ := locateAll_isSome.mpr he
  obtain ⟨s, q1, q2⟩ := locateAll_sections hl
  obtain ⟨s', i1, _, _, i4, i5⟩ := pinned_sections h q1
  have hl' := locateAll_insertFixed p1 (by rw [p2]; exact hl)
  rw [p3, p4] at hl'
  have ho := List.Forall₂.length_eq q2
  rw [List.length_map] at ho
  refine ⟨b, o, s, _, _, s', hl, q1, hl', i1, ?_, ?_⟩
  · exact (rowMajor_sections q1).trans (i4.symm.trans (rowMajor_sections i1).symm)
  · rw [rowMajor_eq (by simpa using ho), rowMajor_eq, i5 o ho]
    have := locateAll_offset hl' i1
    exact List.Forall₂.length_eq this

theorem Aligned.symm {sh sh' : Shape G} {e e' : List Nat} (h : Aligned sh sh' e e') : Aligned sh' sh e' e := by
  obtain ⟨b, o, s, b', o', s', h1, h2, h3, h4, h5, h6⟩ := h
  exact ⟨b', o', s', b, o, s, h3, h4, h1, h2, h5.symm, h6.symm⟩

theorem SameVolumes.symm {sh sh' : Shape G} (h : SameVolumes sh sh') : SameVolumes sh' sh :=
  ⟨h.1.symm, fun b b' s s' q1 q2 q3 => (h.2 b' b s' s q2 q1 q3.symm).symm⟩

theorem SameCharges.symm [AddCommMonoid G] {sh sh' : Shape G} (h : SameCharges sh sh') : SameCharges sh' sh :=
  fun b b' s s' q1 q2 q3 => (h b' b s' s q2 q1 q3.symm).symm

theorem populated_block {sh : Shape G} (h : Populated sh) : ∃ s, sections sh (List.replicate sh.length 0) = some s := by
  induction sh with
  | nil => exact ⟨[], rfl⟩
  | cons d sh ih =>
    obtain ⟨s, hs⟩ := ih fun d hd => h d (by simp [hd])
    rcases d with _ | ⟨x, d⟩
    · exact absurd rfl (h [] (by simp))
    · exact ⟨x :: s, sections_cons.2 ⟨x, s, rfl, hs, rfl⟩⟩

theorem pinned_charges [AddCommGroup G] {sh : Shape G} {dims} (h : Picks sh dims) (hp : Populated sh) :
    SameCharges (kept sh dims) (pinned sh dims) ↔ fixedCharge sh dims = 0 := by
  constructor
  · intro hs
    obtain ⟨s, h1⟩ := populated_block (kept_populated h hp)
    obtain ⟨s', i1, i2, _, i4, _⟩ := pinned_sections h h1
    have := hs _ _ s s' h1 i1 ((rowMajor_sections h1).trans (i4.symm.trans (rowMajor_sections i1).symm))
    rw [i2] at this
    exact left_eq_add.1 this
  · intro h0 b b' s s' h1 h2 h3
    rw [rowMajor_sections h1, rowMajor_sections h2] at h3
    have := pinned_key h h1 (sections_inRange h2) h3
    subst this
    obtain ⟨s'', i1, i2, _⟩ := pinned_sections h h1
    rw [i1] at h2; cases h2
    rw [i2, h0, add_zero]

variable [AddCommGroup G] [DecidableEq G] [Zero R]

/-- Adding dimensions of one element without charge. -/
theorem expand_eq (t other : BT G R) (hc : Conserving t.shape t.rule t.blocks) {dims : List Int}
    (h : UnitPicks other.shape dims) (hk : kept other.shape dims = t.shape) (hp : Populated other.shape) (h0 : fixedCharge other.shape dims = 0) :
    ∃ r, reshapeAs false t other = .ok r ∧ r.shape = other.shape ∧ r.rule = t.rule ∧ Conserving r.shape r.rule r.blocks ∧
      ∀ e, InRange e (t.shape.map dimSize) → entry r.shape r.blocks (insertFixed dims e) = entry t.shape t.blocks e := by
  have hpt : Populated t.shape := by rw [← hk]; exact kept_populated h.picks hp
  have hpin := h.pinned
  have hv := pinned_volumes h.picks
  have hq := (pinned_charges h.picks hp).2 h0
  rw [hpin.1, hk] at hv hq
  obtain ⟨r, r1, r2, r3, r4, r5⟩ := (C26_reshape_as t other hc hpt hp).1 hv hq
  refine ⟨r, r1, r2, r3, r4, ?_⟩
  intro e he
  have ha := pinned_aligned h.picks (e := e) (by rw [hk]; exact he)
  rw [hpin.1, hpin.2, hk] at ha
  exact r5 _ _ ha

end QuantiT.BT
