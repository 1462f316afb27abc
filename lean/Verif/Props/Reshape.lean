import Verif.Lemmas.Reshape2
import Verif.Props.BTensor
/-
C26: reshape and reshape_as.
-/
set_option linter.unusedSectionVars false
namespace QuantiT.BT
open QuantiT.Spec
variable {G R : Type} [AddCommMonoid G] [DecidableEq G]

theorem groupCuts_eq (gss : List (Shape G)) : groupCuts gss = cutsFrom 0 (gss.map List.length) := by
  have : ∀ (gss : List (Shape G)) (a : Nat),
      ((List.range (gss.length - 1)).map fun i => a + ((gss.take (i + 1)).map List.length).sum) =
        cutsFrom a (gss.map List.length) := by
    intro gss
    induction gss with
    | nil => intro a; rfl
    | cons g gss ih =>
      intro a
      cases gss with
      | nil => rfl
      | cons g' gss =>
        have ih := ih (a + g.length)
        simp only [List.length_cons, Nat.add_sub_cancel] at ih ⊢
        rw [List.range_succ_eq_map, List.map_cons, List.map_map]
        simp only [List.map_cons, cutsFrom]
        rw [List.map_cons] at ih
        rw [← ih]
        simp [Function.comp_def, Nat.add_assoc]
  have := this gss 0
  rw [← this, groupCuts]
  simp

theorem fusedIndices_aligned : ∀ {gss : List (Shape G)} {e x : List Nat}, FusedIndices gss e x →
    ∃ b o s b' o' s', locateAll gss.flatten e = some (b, o) ∧ sections gss.flatten b = some s ∧
      locateAll (gss.map fuse) x = some (b', o') ∧ sections (gss.map fuse) b' = some s' ∧
      flat (secCounts gss.flatten) b = flat (secCounts (gss.map fuse)) b' ∧
      flat (s.map Prod.fst) o = flat (s'.map Prod.fst) o' ∧ (s.map Prod.fst).prod = (s'.map Prod.fst).prod
  | [], e, x, h => by
    obtain ⟨rfl, rfl⟩ := h
    exact ⟨[], [], [], [], [], [], rfl, rfl, rfl, rfl, rfl, rfl, rfl⟩
  | g :: gss, e, x, h => by
    obtain ⟨e1, e2, y, ys, rfl, rfl, ⟨b1, o1, s1, h1, h2, h3⟩, h4⟩ := h
    obtain ⟨b, o, s, b', o', s', q1, q2, q3, q4, q5, q6, q7⟩ := fusedIndices_aligned h4
    have r1 := sections_inRange h2
    have ro := locateAll_offset h1 h2
    have hl := List.Forall₂.length_eq r1
    have hlo := List.Forall₂.length_eq ro
    have h3 : locate (fuse g) y = some (rowMajor (secCounts g) b1, rowMajor (s1.map Prod.fst) o1) := h3
    rw [rowMajor_eq hl, rowMajor_eq hlo] at h3
    have e1 : secCounts (g :: gss).flatten = secCounts g ++ secCounts gss.flatten := by simp [secCounts]
    refine ⟨b1 ++ b, o1 ++ o, s1 ++ s, flat (secCounts g) b1 :: b', flat (s1.map Prod.fst) o1 :: o',
      ((s1.map Prod.fst).prod, charge s1) :: s', locateAll_append h1 q1, sections_append h2 q2,
      locateAll_cons.mpr ⟨_, _, _, _, h3, q3, rfl⟩, sections_cons.mpr ⟨_, _, fuse_getElem? h2, q4, rfl⟩, ?_, ?_, ?_⟩
    · rw [e1, flat_append hl, q5, ← secCounts_fuse_prod]; rfl
    · rw [List.map_append, flat_append hlo, q6, q7]; rfl
    · rw [List.map_append, List.prod_append, q7]; rfl

theorem fusedIndices_aligned' {gss : List (Shape G)} {e x : List Nat} (h : FusedIndices gss e x) :
    Aligned gss.flatten (gss.map fuse) e x := by
  obtain ⟨b, o, s, b', o', s', q1, q2, q3, q4, q5, q6, _⟩ := fusedIndices_aligned h
  refine ⟨b, o, s, b', o', s', q1, q2, q3, q4, ?_, ?_⟩
  · show rowMajor (secCounts _) _ = rowMajor (secCounts _) _
    rw [rowMajor_eq (List.Forall₂.length_eq (sections_inRange q2)), rowMajor_eq (List.Forall₂.length_eq (sections_inRange q4)), q5]
  · rw [rowMajor_eq (List.Forall₂.length_eq (locateAll_offset q1 q2)),
      rowMajor_eq (List.Forall₂.length_eq (locateAll_offset q3 q4)), q6]

/-- Every place of a grid is the place of an element. -/
theorem locateAll_surj : ∀ {shape : Shape G} {b o : List Nat} {s}, sections shape b = some s →
    InRange o (s.map Prod.fst) → ∃ e, locateAll shape e = some (b, o)
  | [], [], o, s, h, ho => by
    simp [sections] at h; subst h; cases ho; exact ⟨[], rfl⟩
  | [], _ :: _, _, _, h, _ => by simp [sections] at h
  | _ :: _, [], _, _, h, _ => by simp [sections] at h
  | d :: ds, b :: bs, o, s, h, ho => by
    obtain ⟨s, r, h1, h2, rfl⟩ := sections_cons.mp h
    cases o with
    | nil => cases ho
    | cons o os =>
      obtain ⟨ho1, ho2⟩ := List.forall₂_cons.mp ho
      obtain ⟨es, he⟩ := locateAll_surj h2 ho2
      exact ⟨(dimSize (d.take b) + o) :: es, locateAll_cons.mpr ⟨b, o, bs, os, locate_iff.mpr ⟨s, h1, ho1, rfl⟩, he, rfl⟩⟩

theorem locateAll_inj : ∀ {shape : Shape G} {e e' : List Nat} {p}, locateAll shape e = some p → locateAll shape e' = some p → e = e'
  | [], [], [], _, _, _ => rfl
  | [], _ :: _, _, _, h, _ => by simp [locateAll] at h
  | [], [], _ :: _, _, _, h => by simp [locateAll] at h
  | _ :: _, [], _, _, h, _ => by simp [locateAll] at h
  | _ :: _, _ :: _, [], _, _, h => by simp [locateAll] at h
  | d :: ds, e :: es, e' :: es', p, h, h' => by
    obtain ⟨b, o, bs, os, h1, h2, rfl⟩ := locateAll_cons.mp h
    obtain ⟨b', o', bs', os', h3, h4, h5⟩ := locateAll_cons.mp h'
    simp only [Prod.mk.injEq, List.cons.injEq] at h5
    obtain ⟨⟨rfl, rfl⟩, rfl, rfl⟩ := h5
    obtain ⟨_, _, _, q1⟩ := locate_iff.mp h1
    obtain ⟨_, _, _, q2⟩ := locate_iff.mp h3
    rw [← q1, ← q2, locateAll_inj h2 h4]

/-- Fusing some dimensions renumbers their elements: every element of the separate dimensions is exactly one
element of the fused dimension and conversely. -/
theorem C26_fused_bijection (ds : Shape G) :
    (∀ e, InRange e (ds.map dimSize) → ∃ x, FusedIndex ds e x ∧ x < dimSize (fuse ds) ∧ ∀ y, FusedIndex ds e y → y = x) ∧
    (∀ x, x < dimSize (fuse ds) → ∃ e, FusedIndex ds e x ∧ InRange e (ds.map dimSize) ∧
      ∀ e', FusedIndex ds e' x → e' = e) := by
  constructor
  · intro e he
    obtain ⟨⟨b, o⟩, hp⟩ := locateAll_isSome.mpr he
    obtain ⟨s, h1, h2⟩ := locateAll_sections hp
    have hl := flat_lt h2
    have hr := sections_inRange h1
    have hloc : locate (fuse ds) (dimSize ((fuse ds).take (flat (secCounts ds) b)) + flat (s.map Prod.fst) o) =
        some (flat (secCounts ds) b, flat (s.map Prod.fst) o) := locate_iff.mpr ⟨_, fuse_getElem? h1, hl, rfl⟩
    have e1 : rowMajor (ds.map List.length) b = flat (secCounts ds) b := rowMajor_eq (List.Forall₂.length_eq hr)
    have e2 := rowMajor_eq (List.Forall₂.length_eq h2)
    refine ⟨_, ⟨b, o, s, hp, h1, by rw [e1, e2]; exact hloc⟩, locate_isSome.mp ⟨_, hloc⟩, ?_⟩
    rintro y ⟨b', o', s', q1, q2, q3⟩
    rw [hp] at q1; cases q1
    rw [h1] at q2; cases q2
    rw [e1, e2] at q3
    obtain ⟨_, _, _, r1⟩ := locate_iff.mp q3
    exact r1.symm
  · intro x hx
    obtain ⟨⟨B, O⟩, hp⟩ := locate_isSome.mpr hx
    obtain ⟨sec, h1, h2, h3⟩ := locate_iff.mp hp
    have hB : B < (secCounts ds).prod := by rw [← fuse_length]; exact (List.getElem?_eq_some_iff.mp h1).1
    obtain ⟨s, hs⟩ := sections_of_inRange (unflat_inRange hB)
    have hf := fuse_getElem? hs
    rw [flat_unflat hB, h1] at hf
    simp only [Option.some.injEq] at hf
    subst hf
    obtain ⟨e, he⟩ := locateAll_surj hs (unflat_inRange h2)
    have e1 : rowMajor (ds.map List.length) (unflat (secCounts ds) B) = B := by
      rw [show ds.map List.length = secCounts ds from rfl, rowMajor_eq (List.Forall₂.length_eq (unflat_inRange hB)), flat_unflat hB]
    have e2 : rowMajor (s.map Prod.fst) (unflat (s.map Prod.fst) O) = O := by
      rw [rowMajor_eq (List.Forall₂.length_eq (unflat_inRange h2)), flat_unflat h2]
    refine ⟨e, ⟨_, _, s, he, hs, by rw [e1, e2]; exact hp⟩, locateAll_isSome.mp ⟨_, he⟩, ?_⟩
    rintro e' ⟨b', o', s', q1, q2, q3⟩
    rw [hp] at q3
    simp only [Option.some.injEq, Prod.mk.injEq] at q3
    obtain ⟨q3, q4⟩ := q3
    have hb' := sections_inRange q2
    have hb2 : unflat (secCounts ds) B = b' := by
      rw [q3, show ds.map List.length = secCounts ds from rfl, rowMajor_eq (List.Forall₂.length_eq hb'), unflat_flat hb']
    rw [hb2, q2] at hs; cases hs
    have ho' := locateAll_offset q1 q2
    have ho2 : unflat (s.map Prod.fst) O = o' := by
      rw [q4, rowMajor_eq (List.Forall₂.length_eq ho'), unflat_flat ho']
    rw [hb2, ho2] at he
    exact locateAll_inj q1 he

/-- Reshaping by groups of dimensions: each group becomes one dimension whose sections are the combinations of
its sections in row-major order (sizes multiply, charges compose), the selection rule is kept, the result is a
conserving tensor, and the entry at a fused index is the entry at the original index.  Partial: every group has
at least one dimension and every dimension at least one section (for an empty group see
`C26_empty_group_fails`). -/
theorem C26_reshape_partial [Zero R] (t : BT G R) (hc : Conserving t.shape t.rule t.blocks) (hpop : Populated t.shape)
    (gss : List (Shape G)) (hsh : t.shape = gss.flatten) (h0 : gss ≠ []) (hne : ∀ g ∈ gss, g ≠ []) :
    ∃ r, reshape t (groupCuts gss) = .ok r ∧ r.shape = gss.map fuse ∧ r.rule = t.rule ∧
      Conserving r.shape r.rule r.blocks ∧
      ∀ e x, FusedIndices gss e x → entry r.shape r.blocks x = entry t.shape t.blocks e := by
  obtain ⟨h1, h2⟩ := reshape_eq hc hsh h0 hne hpop
  rw [← groupCuts_eq] at h1
  refine ⟨_, h1, rfl, rfl, h2, ?_⟩
  intro e x hx
  refine retile_entry hc ?_ ?_
  · rw [hsh, secCounts_fuse_prod]
  · have := fusedIndices_aligned' hx
    rw [← hsh] at this
    exact this

/-- `reshape_as(other)` in the default mode succeeds exactly when the two grids have the same number of blocks and
the blocks at the same row-major position have the same charge and the same number of elements; otherwise it
throws `invalid_argument`.  The result has the layout of `other`, keeps the rule, is conserving and has the same
entry at the same row-major position of the same block. -/
theorem C26_reshape_as [Zero R] (t other : BT G R) (hc : Conserving t.shape t.rule t.blocks) (hpop : Populated t.shape)
    (hpop' : Populated other.shape) :
    (SameVolumes t.shape other.shape → SameCharges t.shape other.shape →
      ∃ r, reshapeAs false t other = .ok r ∧ r.shape = other.shape ∧ r.rule = t.rule ∧
        Conserving r.shape r.rule r.blocks ∧
        ∀ e e', Aligned t.shape other.shape e e' → entry r.shape r.blocks e' = entry t.shape t.blocks e) ∧
    (¬ (SameVolumes t.shape other.shape ∧ SameCharges t.shape other.shape) →
      reshapeAs false t other = Res.throw .invalidArgument) := by
  constructor
  · intro hv hq
    obtain ⟨h1, h2⟩ := reshapeAs_eq hc hpop hpop' hv false (fun _ => hq) (by simp)
    exact ⟨_, h1, rfl, rfl, h2, fun e e' ha => retile_entry hc hv.1 ha⟩
  · intro hn
    rw [reshapeAs]
    by_cases hp : (secCounts other.shape).prod = (secCounts t.shape).prod
    · rw [if_neg (by simp [hp])]
      simp only [Bool.false_eq_true, if_false, compatible_charge hpop hpop' hp.symm, compatible_numel hpop hpop' hp.symm,
        bind, Except.bind]
      by_cases hq : SameCharges t.shape other.shape
      · have hv : ¬ SameVolumes t.shape other.shape := fun hv => hn ⟨hv, hq⟩
        simp [hq, hv]
      · simp [hq]
    · rw [if_pos hp]

/-- The mode that takes the charges and the rule of `other`: accepted when the volumes match and every stored
block lands on an allowed block of `other`. -/
theorem C26_reshape_as_overwrite [Zero R] (t other : BT G R) (hc : Conserving t.shape t.rule t.blocks)
    (hpop : Populated t.shape) (hpop' : Populated other.shape) (hv : SameVolumes t.shape other.shape)
    (hal : ∀ kb ∈ t.blocks, ∀ b', rowMajor (t.shape.map List.length) kb.1 = rowMajor (other.shape.map List.length) b' →
      InRange b' (other.shape.map List.length) → Allowed other.shape other.rule b') :
    ∃ r, reshapeAs true t other = .ok r ∧ r.shape = other.shape ∧ r.rule = other.rule ∧
        Conserving r.shape r.rule r.blocks ∧
        ∀ e e', Aligned t.shape other.shape e e' → entry r.shape r.blocks e' = entry t.shape t.blocks e := by
  obtain ⟨h1, h2⟩ := reshapeAs_eq hc hpop hpop' hv true (by simp) (fun _ kb hkb => by
    obtain ⟨s, q1, _⟩ := hc.block kb.1 kb.2 hkb
    have hr := sections_inRange q1
    have hr' := reKey_inRange hv.1 hr
    exact hal kb hkb _ ((reKey_iff hv.1 hr hr').mp rfl) hr')
  exact ⟨_, h1, rfl, rfl, h2, fun e e' ha => retile_entry hc hv.1 ha⟩

theorem mapM_throw {α β : Type} {f : α → Res β} {g : α → β} {e : Exn} : ∀ {l : List α},
    (∀ x ∈ l, f x = .ok (g x) ∨ f x = Res.throw e) → (∃ x ∈ l, f x = Res.throw e) → l.mapM f = Res.throw e
  | [], _, ⟨_, h, _⟩ => by simp at h
  | x :: l, h, ⟨y, hy, hy2⟩ => by
    rw [List.mapM_cons]
    rcases h x (by simp) with hx | hx
    · have hyl : y ∈ l := by
        rcases List.mem_cons.mp hy with rfl | h
        · rw [hx] at hy2; cases hy2
        · exact h
      rw [hx, mapM_throw (fun z hz => h z (by simp [hz])) ⟨y, hyl, hy2⟩]
      rfl
    · rw [hx]; rfl

/-- In that mode the other cases throw `invalid_argument`: the volumes do not match, or a stored block lands on a
block that the rule of `other` forbids. -/
theorem C26_reshape_as_overwrite_reject (t other : BT G R) (hc : Conserving t.shape t.rule t.blocks)
    (hpop : Populated t.shape) (hpop' : Populated other.shape)
    (hno : ¬ SameVolumes t.shape other.shape ∨
      ∃ kb ∈ t.blocks, ∃ b', rowMajor (t.shape.map List.length) kb.1 = rowMajor (other.shape.map List.length) b' ∧
        InRange b' (other.shape.map List.length) ∧ ¬ Allowed other.shape other.rule b') :
    reshapeAs true t other = Res.throw .invalidArgument := by
  rw [reshapeAs]
  by_cases hp : (secCounts other.shape).prod = (secCounts t.shape).prod
  · rw [if_neg (by simp [hp])]
    simp only [if_true, compatible_numel hpop hpop' hp.symm, bind, Except.bind]
    by_cases hv : SameVolumes t.shape other.shape
    · rcases hno with hno | ⟨kb, hkb, b', h1, h2, h3⟩
      · exact absurd hv hno
      · have hbad : ∀ kb ∈ t.blocks, ¬ Allowed other.shape other.rule (reKey t.shape other.shape kb.1) →
            reshapeAsBlk true t other kb = Res.throw .invalidArgument := by
          intro kb hkb hna
          obtain ⟨s, q1, _⟩ := hc.block kb.1 kb.2 hkb
          have hr := sections_inRange q1
          have hu := unflattenLoop_eq (secCounts_pos hpop') (flat (secCounts t.shape) kb.1) 0 (by rw [hp]; exact flat_lt hr)
          rw [Nat.zero_mul, Nat.zero_add] at hu
          have hcf := conserves_false (reKey_inRange hp.symm hr) hna
          have hu2 : unflat (secCounts other.shape) (flat (secCounts t.shape) kb.1) = reKey t.shape other.shape kb.1 := rfl
          simp only [reshapeAsBlk, flattenLoop_eq (List.Forall₂.length_eq hr), hu, bind, Except.bind, hu2, if_true, hcf]
          rfl
        have hm : t.blocks.mapM (reshapeAsBlk true t other) = Res.throw .invalidArgument := by
          refine mapM_throw (g := fun kb => (reKey t.shape other.shape kb.1, reBlk t.shape other.shape kb)) ?_ ⟨kb, hkb, ?_⟩
          · intro x hx
            by_cases ha : Allowed other.shape other.rule (reKey t.shape other.shape x.1)
            · exact .inl (reshapeAsBlk_eq hc hpop' hv true hx fun _ => ha)
            · exact .inr (hbad x hx ha)
          · apply hbad kb hkb
            obtain ⟨s, q1, _⟩ := hc.block kb.1 kb.2 hkb
            rw [(reKey_iff hp.symm (sections_inRange q1) h2).mpr h1]
            exact h3
        simp only [hv, hm]
        rfl
    · simp [hv]
  · rw [if_pos hp]

/-- Reshaping a tensor to the layout of another one and back restores it exactly. -/
theorem C26_reshape_as_round_trip (t other : BT G R) (hc : Conserving t.shape t.rule t.blocks) (hpop : Populated t.shape)
    (hpop' : Populated other.shape) (hv : SameVolumes t.shape other.shape) (hq : SameCharges t.shape other.shape) :
    ∃ r t', reshapeAs false t other = .ok r ∧ reshapeAs false r t = .ok t' ∧ t'.shape = t.shape ∧ t'.rule = t.rule ∧
      SameBlocks t'.blocks t.blocks := by
  obtain ⟨h1, h2⟩ := reshapeAs_eq hc hpop hpop' hv false (fun _ => hq) (by simp)
  have hv' : SameVolumes other.shape t.shape := ⟨hv.1.symm, fun b b' s s' q1 q2 q3 => (hv.2 b' b s' s q2 q1 q3.symm).symm⟩
  have hq' : SameCharges other.shape t.shape := fun b b' s s' q1 q2 q3 => (hq b' b s' s q2 q1 q3.symm).symm
  obtain ⟨h3, h4⟩ := reshapeAs_eq (t := ⟨other.shape, t.rule, retile t.shape other.shape t.blocks⟩) (other := t)
    h2 hpop' hpop hv' false (fun _ => hq') (by simp)
  refine ⟨_, _, h1, h3, rfl, rfl, ?_⟩
  refine retile_retile (rule' := t.rule) hc hv ?_
  intro k b s' hk hs'
  obtain ⟨s, q1, q2, _⟩ := hc.block k b hk
  rw [← hq k _ s s' q1 hs' ((reKey_iff hv.1 (sections_inRange q1) (sections_inRange hs')).mp rfl)]
  exact q2

/-- Fusing dimensions and then reshaping back with `reshape_as(original)` restores the tensor exactly. -/
theorem C26_round_trip_partial (t : BT G R) (hc : Conserving t.shape t.rule t.blocks) (hpop : Populated t.shape)
    (gss : List (Shape G)) (hsh : t.shape = gss.flatten) (h0 : gss ≠ []) (hne : ∀ g ∈ gss, g ≠ []) :
    ∃ r t', reshape t (groupCuts gss) = .ok r ∧ reshapeAs false r t = .ok t' ∧ t'.shape = t.shape ∧ t'.rule = t.rule ∧
      SameBlocks t'.blocks t.blocks := by
  obtain ⟨h1, h2⟩ := reshape_eq hc hsh h0 hne hpop
  rw [← groupCuts_eq] at h1
  obtain ⟨hv, hq⟩ := fuse_same gss
  have hp2 := fuse_populated (gss := gss) (by rw [← hsh]; exact hpop)
  rw [← hsh] at hv hq
  have hv' : SameVolumes (gss.map fuse) t.shape := ⟨hv.1.symm, fun b b' s s' q1 q2 q3 => (hv.2 b' b s' s q2 q1 q3.symm).symm⟩
  have hq' : SameCharges (gss.map fuse) t.shape := fun b b' s s' q1 q2 q3 => (hq b' b s' s q2 q1 q3.symm).symm
  obtain ⟨h3, h4⟩ := reshapeAs_eq (t := ⟨gss.map fuse, t.rule, retile t.shape (gss.map fuse) t.blocks⟩) (other := t)
    h2 hp2 hpop hv' false (fun _ => hq') (by simp)
  refine ⟨_, _, h1, h3, rfl, rfl, ?_⟩
  refine retile_retile (rule' := t.rule) hc hv ?_
  intro k b s' hk hs'
  obtain ⟨s, q1, q2, _⟩ := hc.block k b hk
  rw [← hq k _ s s' q1 hs' ((reKey_iff hv.1 (sections_inRange q1) (sections_inRange hs')).mp rfl)]
  exact q2

/-- An empty group in the middle (cuts `[1, 1]` of a rank 2 tensor: dimensions, nothing, dimensions) ought to give a
dimension of size one; the block sizes are computed for the wrong group and the constructor refuses its own
result. -/
theorem C26_empty_group_fails : ∃ t : BT ℤ ℤ, Conserving t.shape t.rule t.blocks ∧ Populated t.shape ∧
    reshape t [1, 1] = Res.throw .invalidArgument := by
  refine ⟨⟨[[(2, 0)], [(3, 0)]], 0, [([0, 0], ⟨[2, 3], fun _ => 1⟩)]⟩, ⟨by unfold Sorted; decide, ?_⟩, ?_, rfl⟩
  · intro k b h
    simp only [List.mem_singleton, Prod.mk.injEq] at h
    obtain ⟨rfl, rfl⟩ := h
    exact ⟨[(2, 0), (3, 0)], rfl, rfl, rfl⟩
  · intro d hd
    simp only [List.mem_cons, List.not_mem_nil, or_false] at hd
    rcases hd with rfl | rfl <;> simp

/-- The hypotheses are met: a matrix fused to a vector, and back. -/
example : Conserving ex18.shape ex18.rule ex18.blocks ∧ Populated ex18.shape ∧ ex18.shape = [ex18.shape].flatten ∧
    groupCuts [ex18.shape] = [] ∧ fuse ex18.shape = [(2, 0), (4, -1), (1, 1), (2, 0)] := by
  refine ⟨ex18_conserving, ?_, by simp, rfl, rfl⟩
  intro d hd
  simp only [ex18, List.mem_cons, List.not_mem_nil, or_false] at hd
  rcases hd with rfl | rfl <;> simp
/-- Three dimensions fused in two groups. -/
example : groupCuts [[[(2, (0 : ℤ))], [(1, 1), (3, 0)]], [[(2, 5)]]] = [2] ∧
    FusedIndices [[[(2, (0 : ℤ))], [(1, 1), (3, 0)]], [[(2, 5)]]] [1, 2, 1] [6, 1] := by
  refine ⟨rfl, [1, 2], [1], 6, [1], rfl, rfl, ⟨[0, 1], [1, 1], [(2, 0), (3, 0)], rfl, rfl, rfl⟩, ?_⟩
  exact ⟨[1], [], 1, [], rfl, rfl, ⟨[0], [1], [(2, 5)], rfl, rfl, rfl⟩, rfl, rfl⟩
/-- Two different layouts that fit each other. -/
example : reshape ex18 [] = .ok ⟨[fuse ex18.shape], 0, retile ex18.shape [fuse ex18.shape] ex18.blocks⟩ ∧
    SameVolumes ex18.shape [fuse ex18.shape] ∧ SameCharges ex18.shape [fuse ex18.shape] := by
  have hpop : Populated ex18.shape := by
    intro d hd
    simp only [ex18, List.mem_cons, List.not_mem_nil, or_false] at hd
    rcases hd with rfl | rfl <;> simp
  have h := reshape_eq ex18_conserving (gss := [ex18.shape]) (by simp) (by simp) (by simp [ex18]) hpop
  have h2 := fuse_same [ex18.shape]
  have e : [ex18.shape].flatten = ex18.shape := by simp
  rw [e] at h2
  exact ⟨h.1, h2.1, h2.2⟩

end QuantiT.BT
