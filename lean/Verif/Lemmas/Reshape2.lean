import Verif.Lemmas.Reshape
/-
`reshape_as` and `reshape` move the blocks to another grid.
-/
set_option linter.unusedSectionVars false
namespace QuantiT.BT
open QuantiT.Spec
variable {G R : Type}

section
variable [AddCommMonoid G] [DecidableEq G]

/-- The comparison made by the compatibility loops at one position. -/
def cmpAt (a b : Shape G) (P : List (Nat × G) → List (Nat × G) → Bool) (k : Nat) : Bool :=
  match sections a (unflat (secCounts a) k), sections b (unflat (secCounts b) k) with
  | some s, some s' => P s s'
  | _, _ => false

theorem cmpAt_forall {a b : Shape G} (hp : (secCounts a).prod = (secCounts b).prod)
    (P : List (Nat × G) → List (Nat × G) → Bool) :
    (∀ k, k < (secCounts a).prod → cmpAt a b P k = true) ↔
      ∀ x y s s', sections a x = some s → sections b y = some s' →
        rowMajor (a.map List.length) x = rowMajor (b.map List.length) y → P s s' = true := by
  constructor
  · intro h x y s s' h1 h2 h3
    have r1 := sections_inRange h1
    have r2 := sections_inRange h2
    have h3 : rowMajor (secCounts a) x = rowMajor (secCounts b) y := h3
    rw [rowMajor_eq (List.Forall₂.length_eq r1), rowMajor_eq (List.Forall₂.length_eq r2)] at h3
    have := h _ (flat_lt r1)
    rw [cmpAt, unflat_flat r1, h3, unflat_flat r2, h1, h2] at this
    exact this
  · intro h k hk
    obtain ⟨s, hs⟩ := sections_of_inRange (unflat_inRange hk)
    have hk' : k < (secCounts b).prod := by rw [← hp]; exact hk
    obtain ⟨s', hs'⟩ := sections_of_inRange (unflat_inRange hk')
    rw [cmpAt, hs, hs']
    refine h _ _ s s' hs hs' ?_
    show rowMajor (secCounts a) _ = rowMajor (secCounts b) _
    rw [rowMajor_eq (List.Forall₂.length_eq (unflat_inRange hk)), rowMajor_eq (List.Forall₂.length_eq (unflat_inRange hk')),
      flat_unflat hk, flat_unflat hk']

open Classical in
theorem compatible_charge {a b : Shape G} (ha : Populated a) (hb : Populated b)
    (hp : (secCounts a).prod = (secCounts b).prod) :
    compatible a b (sameCharge a b) = .ok (decide (SameCharges a b)) := by
  rw [compatible_eq ha hb hp (f := cmpAt a b fun s s' => decide (charge s = charge s'))]
  · refine congrArg Except.ok (decide_eq_decide.mpr ?_)
    rw [cmpAt_forall hp]
    simp only [decide_eq_true_eq]; rfl
  · intro k hk
    obtain ⟨s, hs⟩ := sections_of_inRange (unflat_inRange hk)
    have hk' : k < (secCounts b).prod := by rw [← hp]; exact hk
    obtain ⟨s', hs'⟩ := sections_of_inRange (unflat_inRange hk')
    simp only [sameCharge, blockProps_eq hs, blockProps_eq hs', bind, Except.bind, cmpAt, hs, hs', foldl_add_zero]
    rfl

open Classical in
theorem compatible_numel {a b : Shape G} (ha : Populated a) (hb : Populated b)
    (hp : (secCounts a).prod = (secCounts b).prod) :
    compatible a b (sameNumel a b) = .ok (decide (SameVolumes a b)) := by
  rw [compatible_eq ha hb hp (f := cmpAt a b fun s s' => decide ((s.map Prod.fst).prod = (s'.map Prod.fst).prod))]
  · refine congrArg Except.ok (decide_eq_decide.mpr ?_)
    rw [cmpAt_forall hp]
    simp only [decide_eq_true_eq, SameVolumes]
    exact ⟨fun h => ⟨hp, h⟩, fun h => h.2⟩
  · intro k hk
    obtain ⟨s, hs⟩ := sections_of_inRange (unflat_inRange hk)
    have hk' : k < (secCounts b).prod := by rw [← hp]; exact hk
    obtain ⟨s', hs'⟩ := sections_of_inRange (unflat_inRange hk')
    simp only [sameNumel, blockProps_eq hs, blockProps_eq hs', bind, Except.bind, cmpAt, hs, hs', foldl_mul_one]

/-- One block of `reshape_as`. -/
theorem reshapeAsBlk_eq {t other : BT G R} (hc : Conserving t.shape t.rule t.blocks) (ho : Populated other.shape)
    (hv : SameVolumes t.shape other.shape) (ow : Bool) {kb : List Nat × Blk R} (hkb : kb ∈ t.blocks)
    (hal : ow = true → Allowed other.shape other.rule (reKey t.shape other.shape kb.1)) :
    reshapeAsBlk ow t other kb = .ok (reKey t.shape other.shape kb.1, reBlk t.shape other.shape kb) := by
  obtain ⟨hp, hv⟩ := hv
  have hp : (secCounts t.shape).prod = (secCounts other.shape).prod := hp
  obtain ⟨s, h1, h2, h3⟩ := hc.block kb.1 kb.2 hkb
  have hr := sections_inRange h1
  have hr' := reKey_inRange hp hr
  obtain ⟨s', hs'⟩ := sections_of_inRange hr'
  have hvol := hv _ _ s s' h1 hs' ((reKey_iff hp hr hr').mp rfl)
  have hu := unflattenLoop_eq (secCounts_pos ho) (flat (secCounts t.shape) kb.1) 0 (by rw [← hp]; exact flat_lt hr)
  rw [Nat.zero_mul, Nat.zero_add] at hu
  have hu2 : unflat (secCounts other.shape) (flat (secCounts t.shape) kb.1) = reKey t.shape other.shape kb.1 := rfl
  simp only [reshapeAsBlk, flattenLoop_eq (List.Forall₂.length_eq hr), hu, bind, Except.bind, hu2]
  have hok : (if ow = true then conserves other (reKey t.shape other.shape kb.1) else (.ok true : Res Bool)) = .ok true := by
    cases ow
    · rfl
    · rw [if_pos rfl]; exact conserves_allowed (hal rfl)
  simp only [hok, blockSizes_eq hs']
  simp only [reshapeBlk, h3, ← hvol, not_true, if_true, if_false]
  simp only [reBlk, secSizes_eq hs', h3]

theorem reshapeAs_eq {t other : BT G R} (hc : Conserving t.shape t.rule t.blocks) (ht : Populated t.shape)
    (ho : Populated other.shape) (hv : SameVolumes t.shape other.shape) (ow : Bool)
    (hq : ow = false → SameCharges t.shape other.shape)
    (hal : ow = true → ∀ kb ∈ t.blocks, Allowed other.shape other.rule (reKey t.shape other.shape kb.1)) :
    reshapeAs ow t other =
      .ok ⟨other.shape, if ow then other.rule else t.rule, retile t.shape other.shape t.blocks⟩ ∧
    Conserving other.shape (if ow then other.rule else t.rule) (retile t.shape other.shape t.blocks) := by
  have hp : (secCounts t.shape).prod = (secCounts other.shape).prod := hv.1
  have hcons : Conserving other.shape (if ow then other.rule else t.rule) (retile t.shape other.shape t.blocks) := by
    refine retile_conserving hc hp ?_
    intro k b s' hk hs'
    cases ow
    · obtain ⟨s, h1, h2, h3⟩ := hc.block k b hk
      have := hq rfl k _ s s' h1 hs' ((reKey_iff hp (sections_inRange h1) (sections_inRange hs')).mp rfl)
      rw [← this]; exact h2
    · obtain ⟨s, h1, h2⟩ := hal rfl _ hk
      rw [hs'] at h1; cases h1; exact h2
  refine ⟨?_, hcons⟩
  rw [reshapeAs, if_neg (by rw [hp]; simp)]
  have h1 : (if ow = true then (.ok true : Res Bool) else compatible t.shape other.shape (sameCharge t.shape other.shape)) = .ok true := by
    cases ow
    · rw [if_neg (by simp), compatible_charge ht ho hp]; simp [hq rfl]
    · rfl
  have h2 : t.blocks.mapM (reshapeAsBlk ow t other) =
      .ok (t.blocks.map fun kb => (reKey t.shape other.shape kb.1, reBlk t.shape other.shape kb)) :=
    mapM_ok fun kb hkb => reshapeAsBlk_eq hc ho hv ow hkb fun h => hal h kb hkb
  simp only [h1, bind, Except.bind, compatible_numel ht ho hp, hv, h2]
  exact mkChecked_ok hcons.block

/-! ### Groups -/

/-- Boundaries between consecutive groups of the given lengths. -/
def cutsFrom (a : Nat) : List Nat → List Nat
  | [] => []
  | [_] => []
  | l :: l' :: ls => (a + l) :: cutsFrom (a + l) (l' :: ls)

def boundsFrom (a : Nat) : List Nat → List (Nat × Nat)
  | [] => []
  | l :: ls => (a, a + l) :: boundsFrom (a + l) ls

def cutsFull (a : Nat) : List Nat → List Nat
  | [] => [a]
  | l :: ls => a :: cutsFull (a + l) ls

theorem groupBounds_eq : ∀ (a : Nat) (ls : List Nat), ls ≠ [] →
    (a :: cutsFrom a ls).zip (cutsFrom a ls ++ [a + ls.sum]) = boundsFrom a ls ∧
    a :: cutsFrom a ls ++ [a + ls.sum] = cutsFull a ls
  | _, [], h => absurd rfl h
  | a, [l], _ => by simp [cutsFrom, boundsFrom, cutsFull]
  | a, l :: l' :: ls, _ => by
    obtain ⟨h1, h2⟩ := groupBounds_eq (a + l) (l' :: ls) (by simp)
    have e : a + (l :: l' :: ls).sum = a + l + (l' :: ls).sum := by simp [Nat.add_assoc]
    constructor
    · rw [cutsFrom, e, List.cons_append, List.zip_cons_cons, h1]; rfl
    · rw [cutsFrom, e, List.cons_append, h2]; rfl

theorem slices_eq {α : Type} : ∀ (pre : List α) (lss : List (List α)),
    (boundsFrom pre.length (lss.map List.length)).map (fun ab => slice ab (pre ++ lss.flatten)) = lss
  | _, [] => rfl
  | pre, l :: lss => by
    have ih := slices_eq (pre ++ l) lss
    simp only [List.map_cons, boundsFrom, List.flatten_cons]
    rw [List.length_append, List.append_assoc] at ih
    rw [ih]
    congr 1
    rw [slice, ← List.append_assoc, List.take_append_of_le_length (by simp), List.take_of_length_le (by simp)]
    simp

theorem boundsFrom_ok : ∀ (a : Nat) (ls : List Nat), ∀ ab ∈ boundsFrom a ls, ab.1 ≤ ab.2 ∧ ab.2 ≤ a + ls.sum
  | _, [], _, h => by simp [boundsFrom] at h
  | a, l :: ls, ab, h => by
    rcases List.mem_cons.mp h with rfl | h
    · simp
    · have := boundsFrom_ok (a + l) ls ab h
      simp only [List.sum_cons]; omega

theorem boundsFrom_length (a : Nat) (ls : List Nat) : (boundsFrom a ls).length = ls.length := by
  induction ls generalizing a with
  | nil => rfl
  | cons l ls ih => simp [boundsFrom, ih]

/-! ### `new_block_shape` -/

theorem newShape_inside (m : List Nat) : ∀ (ss rest : List Nat) (i p : Nat) (done : List Nat) (cur : Nat) (tl : List Nat),
    p = done.length → (ss ≠ [] → i + ss.length ≤ m.getD (p + 1) 0) →
    newShapeLoop m i p (ss ++ rest) (done ++ cur :: tl) =
      newShapeLoop m (i + ss.length) p rest (done ++ (cur * ss.prod) :: tl)
  | [], rest, i, p, done, cur, tl, _, _ => by simp
  | s :: ss, rest, i, p, done, cur, tl, hp, hm => by
    have hm := hm (by simp)
    simp only [List.length_cons] at hm
    rw [List.cons_append, newShapeLoop]
    rw [if_neg (by omega)]
    have e1 : (done ++ cur :: tl).getD p 1 = cur := by subst hp; simp [List.getD_eq_getElem?_getD]
    have e2 : (done ++ cur :: tl).set p (cur * s) = done ++ (cur * s) :: tl := by subst hp; simp
    rw [e1, e2, newShape_inside m ss rest (i + 1) p done (cur * s) tl hp (fun _ => by omega), List.prod_cons,
      List.length_cons, Nat.mul_assoc]
    congr 1; omega

theorem getD_of_drop {m : List Nat} {p : Nat} {x : Nat} {l : List Nat} (h : m.drop p = x :: l) :
    m.getD p 0 = x ∧ m.drop (p + 1) = l := by
  constructor
  · have : (m.drop p)[0]? = some x := by rw [h]; rfl
    rw [List.getElem?_drop] at this
    rw [List.getD_eq_getElem?_getD]; simp at this; simp [this]
  · rw [← List.drop_drop, h]; rfl

theorem newShape_groups (m : List Nat) : ∀ (szs : List (List Nat)) (i p : Nat) (done : List Nat) (cur : Nat),
    p = done.length → (∀ g ∈ szs, g ≠ []) → m.drop (p + 1) = cutsFull i (szs.map List.length) →
    newShapeLoop m i p szs.flatten (done ++ cur :: List.replicate szs.length 1) = done ++ cur :: szs.map List.prod
  | [], i, p, done, cur, _, _, _ => by simp [newShapeLoop]
  | [] :: szs, _, _, _, _, _, hne, _ => absurd rfl (hne [] (by simp))
  | (s :: ss) :: szs, i, p, done, cur, hp, hne, hm => by
    rw [List.map_cons, cutsFull] at hm
    obtain ⟨m1, m2⟩ := getD_of_drop hm
    have hm3 : m.getD (p + 1 + 1) 0 = i + (s :: ss).length := by
      cases szs with
      | nil => exact (getD_of_drop m2).1
      | cons g szs => exact (getD_of_drop m2).1
    rw [List.flatten_cons, List.cons_append, newShapeLoop]
    rw [if_pos (by omega)]
    have e1 : (done ++ cur :: List.replicate ((s :: ss) :: szs).length 1).getD (p + 1) 1 = 1 := by
      subst hp
      simp [List.getD_eq_getElem?_getD, List.getElem?_append_right, List.replicate_succ]
    have e2 : (done ++ cur :: List.replicate ((s :: ss) :: szs).length 1).set (p + 1) (1 * s) =
        (done ++ [cur]) ++ s :: List.replicate szs.length 1 := by
      subst hp
      simp [List.set_append, List.replicate_succ]
    rw [e1, e2, newShape_inside m ss szs.flatten (i + 1) (p + 1) (done ++ [cur]) s _ (by simp [hp])
      (fun _ => by rw [hm3]; simp only [List.length_cons]; omega)]
    have ih := newShape_groups m szs (i + 1 + ss.length) (p + 1) (done ++ [cur]) (s * ss.prod) (by simp [hp])
      (fun g hg => hne g (by simp [hg])) (by rw [m2]; congr 1; simp only [List.length_cons]; omega)
    rw [ih]; simp

theorem newShape_eq {szs : List (List Nat)} (h0 : szs ≠ []) (hne : ∀ g ∈ szs, g ≠ []) :
    newShapeLoop (cutsFull 0 (szs.map List.length)) 0 0 szs.flatten (List.replicate szs.length 1) = szs.map List.prod := by
  cases szs with
  | nil => exact absurd rfl h0
  | cons g szs =>
    have hd : (cutsFull 0 ((g :: szs).map List.length)).drop 1 = cutsFull g.length (szs.map List.length) := by
      simp [cutsFull]
    have hm : (cutsFull 0 ((g :: szs).map List.length)).getD 1 0 = g.length := by
      cases szs <;> exact (getD_of_drop hd).1
    have := newShape_inside (cutsFull 0 ((g :: szs).map List.length)) g szs.flatten 0 0 [] 1 (List.replicate szs.length 1) rfl
      (fun _ => by rw [Nat.zero_add, hm])
    simp only [List.nil_append, Nat.zero_add, Nat.one_mul] at this
    rw [List.flatten_cons, List.length_cons, List.replicate_succ, this]
    have := newShape_groups (cutsFull 0 ((g :: szs).map List.length)) szs g.length 0 [] g.prod rfl
      (fun x hx => hne x (by simp [hx])) hd
    simpa using this

/-! ### The grid of fused dimensions -/

/-- Block index and sections, group by group. -/
def Grouped (gss : List (Shape G)) (ps : List (List Nat × List (Nat × G))) : Prop :=
  List.Forall₂ (fun g p => sections g p.1 = some p.2) gss ps

theorem grouped_of_sections : ∀ {gss : List (Shape G)} {k s}, sections gss.flatten k = some s →
    ∃ ps, Grouped gss ps ∧ k = (ps.map Prod.fst).flatten ∧ s = (ps.map Prod.snd).flatten
  | [], k, s, h => by
    cases k <;> simp [sections] at h
    subst h; exact ⟨[], .nil, rfl, rfl⟩
  | g :: gss, k, s, h => by
    rw [List.flatten_cons] at h
    obtain ⟨b1, b2, r1, r2, rfl, rfl, h1, h2⟩ := sections_append_inv h
    obtain ⟨ps, h3, rfl, rfl⟩ := grouped_of_sections h2
    exact ⟨(b1, r1) :: ps, .cons h1 h3, rfl, rfl⟩

theorem secCounts_fuse_prod (gss : List (Shape G)) :
    (secCounts (gss.map fuse)).prod = (secCounts gss.flatten).prod := by
  induction gss with
  | nil => rfl
  | cons g gss ih =>
    simp only [secCounts, List.map_cons, List.prod_cons, List.flatten_cons, List.map_append, List.prod_append] at ih ⊢
    rw [ih, fuse_length]; rfl

/-- Block index in the fused grid. -/
def fusedKey : List (Shape G) → List (List Nat × List (Nat × G)) → List Nat
  | g :: gss, p :: ps => flat (secCounts g) p.1 :: fusedKey gss ps
  | _, _ => []

theorem grouped_fused {gss : List (Shape G)} {ps} (h : Grouped gss ps) :
    sections (gss.map fuse) (fusedKey gss ps) =
      some (ps.map fun p => ((p.2.map Prod.fst).prod, charge p.2)) ∧
    flat (secCounts (gss.map fuse)) (fusedKey gss ps) = flat (secCounts gss.flatten) ((ps.map Prod.fst).flatten) ∧
    sections gss.flatten ((ps.map Prod.fst).flatten) = some ((ps.map Prod.snd).flatten) := by
  induction h with
  | nil => exact ⟨rfl, rfl, rfl⟩
  | @cons g p gss ps h1 h2 ih =>
    obtain ⟨i1, i2, i3⟩ := ih
    refine ⟨?_, ?_, ?_⟩
    · exact sections_cons.mpr ⟨_, _, fuse_getElem? h1, i1, rfl⟩
    · have hl : p.1.length = (secCounts g).length := by simp [secCounts, (sections_length h1).1]
      have e : secCounts (g :: gss).flatten = secCounts g ++ secCounts gss.flatten := by simp [secCounts]
      rw [e, List.map_cons, List.map_cons, List.flatten_cons, flat_append hl, ← i2, ← secCounts_fuse_prod]
      rfl
    · exact sections_append h1 i3

theorem grouped_reKey {gss : List (Shape G)} {ps} (h : Grouped gss ps) :
    reKey gss.flatten (gss.map fuse) ((ps.map Prod.fst).flatten) = fusedKey gss ps := by
  obtain ⟨h1, h2, h3⟩ := grouped_fused h
  rw [reKey, ← h2, unflat_flat (sections_inRange h1)]

theorem prod_flatten' (l : List (List Nat)) : l.flatten.prod = (l.map List.prod).prod := by
  induction l with
  | nil => rfl
  | cons a l ih => simp [ih]

theorem charge_flatten (l : List (List (Nat × G))) : charge l.flatten = (l.map charge).sum := by
  induction l with
  | nil => rfl
  | cons a l ih => rw [List.flatten_cons, charge_append, ih]; simp

theorem fuse_same (gss : List (Shape G)) :
    SameVolumes gss.flatten (gss.map fuse) ∧ SameCharges gss.flatten (gss.map fuse) := by
  have hp := (secCounts_fuse_prod gss).symm
  have key : ∀ b b' s s', sections gss.flatten b = some s → sections (gss.map fuse) b' = some s' →
      rowMajor (gss.flatten.map List.length) b = rowMajor ((gss.map fuse).map List.length) b' →
      ∃ ps : List (List Nat × List (Nat × G)), s = (ps.map Prod.snd).flatten ∧
        s' = ps.map fun p => ((p.2.map Prod.fst).prod, charge p.2) := by
    intro b b' s s' h1 h2 h3
    obtain ⟨ps, g1, rfl, rfl⟩ := grouped_of_sections h1
    have := (reKey_iff hp (sections_inRange h1) (sections_inRange h2)).mpr h3
    rw [grouped_reKey g1] at this
    subst this
    rw [(grouped_fused g1).1] at h2
    cases h2
    exact ⟨ps, rfl, rfl⟩
  refine ⟨⟨hp, ?_⟩, ?_⟩
  · intro b b' s s' h1 h2 h3
    obtain ⟨ps, rfl, rfl⟩ := key b b' s s' h1 h2 h3
    rw [List.map_flatten, prod_flatten', List.map_map, List.map_map, List.map_map]
    rfl
  · intro b b' s s' h1 h2 h3
    obtain ⟨ps, rfl, rfl⟩ := key b b' s s' h1 h2 h3
    rw [charge_flatten]
    simp [charge, List.map_map, Function.comp_def]

theorem fuse_populated {gss : List (Shape G)} (h : Populated gss.flatten) : Populated (gss.map fuse) := by
  intro d hd
  obtain ⟨g, hg, rfl⟩ := List.mem_map.mp hd
  have hpos : 0 < (secCounts g).prod := prod_pos (secCounts_pos fun d hd => h d (List.mem_flatten.mpr ⟨g, hg, hd⟩))
  intro he
  rw [← fuse_length, he] at hpos
  simp at hpos

theorem slices_mapM {gss : List (Shape G)} (h : Populated gss.flatten) :
    (boundsFrom 0 (gss.map List.length)).mapM (fun ab => fuseDim (slice ab gss.flatten)) = .ok (gss.map fuse) := by
  have e := slices_eq [] gss
  simp only [List.length_nil, List.nil_append] at e
  have h1 : (boundsFrom 0 (gss.map List.length)).mapM (fun ab => fuseDim (slice ab gss.flatten)) =
      ((boundsFrom 0 (gss.map List.length)).map fun ab => slice ab gss.flatten).mapM fuseDim := by
    rw [List.mapM_map]
    rfl
  rw [h1, e]
  exact mapM_ok fun g hg => fuseDim_eq fun d hd => h d (List.mem_flatten.mpr ⟨g, hg, hd⟩)

theorem grouped_lengths {gss : List (Shape G)} {ps} (h : Grouped gss ps) :
    gss.map List.length = (ps.map Prod.fst).map List.length ∧ gss.map List.length = (ps.map Prod.snd).map List.length ∧
    gss.length = ps.length := by
  induction h with
  | nil => exact ⟨rfl, rfl, rfl⟩
  | @cons g p gss ps h1 h2 ih =>
    obtain ⟨i1, i2, i3⟩ := ih
    obtain ⟨l1, l2⟩ := sections_length h1
    simp only [List.map_cons, List.length_cons, l1, l2, ← i1, ← i2, i3, and_self]

theorem fusedKey_slices {gss : List (Shape G)} {ps} (h : Grouped gss ps) (pre : Shape G) (prek : List Nat)
    (hl : prek.length = pre.length) :
    (boundsFrom pre.length (gss.map List.length)).map (fun ab =>
      (flattenLoop (slice ab (secCounts (pre ++ gss.flatten))) (slice ab (prek ++ (ps.map Prod.fst).flatten))).1) =
    fusedKey gss ps := by
  induction h generalizing pre prek with
  | nil => rfl
  | @cons g p gss ps h1 h2 ih =>
    have hgl : p.1.length = g.length := (sections_length h1).1
    have ih := ih (pre ++ g) (prek ++ p.1) (by simp [hl, hgl])
    rw [List.length_append, List.append_assoc, List.append_assoc] at ih
    simp only [List.map_cons, boundsFrom, List.flatten_cons, fusedKey]
    rw [ih]
    congr 1
    have e1 : slice (pre.length, pre.length + g.length) (secCounts (pre ++ (g ++ gss.flatten))) = secCounts g := by
      simp only [slice, secCounts, List.map_append]
      rw [← List.append_assoc, List.take_append_of_le_length (by simp), List.take_of_length_le (by simp),
        List.drop_append_of_le_length (by simp), List.drop_of_length_le (by simp), List.nil_append]
    have e2 : slice (pre.length, pre.length + g.length) (prek ++ (p.1 ++ (ps.map Prod.fst).flatten)) = p.1 := by
      simp only [slice]
      rw [← List.append_assoc, List.take_append_of_le_length (by simp [hl, hgl]), List.take_of_length_le (by simp [hl, hgl]),
        List.drop_append_of_le_length (by simp [hl]), List.drop_of_length_le (by simp [hl]), List.nil_append]
    rw [e1, e2, flattenLoop_eq (by simp [secCounts, hgl])]

/-- `reshape` moves the blocks to the fused grid. -/
theorem reshape_eq {t : BT G R} (hc : Conserving t.shape t.rule t.blocks) {gss : List (Shape G)}
    (hsh : t.shape = gss.flatten) (h0 : gss ≠ []) (hne : ∀ g ∈ gss, g ≠ []) (hpop : Populated t.shape) :
    reshape t (cutsFrom 0 (gss.map List.length)) = .ok ⟨gss.map fuse, t.rule, retile t.shape (gss.map fuse) t.blocks⟩ ∧
    Conserving (gss.map fuse) t.rule (retile t.shape (gss.map fuse) t.blocks) := by
  obtain ⟨hv, hq⟩ := fuse_same gss
  have hp : (secCounts t.shape).prod = (secCounts (gss.map fuse)).prod := by rw [hsh]; exact hv.1
  have hcons : Conserving (gss.map fuse) t.rule (retile t.shape (gss.map fuse) t.blocks) := by
    refine retile_conserving hc hp ?_
    intro k b s' hk hs'
    obtain ⟨s, h1, h2, h3⟩ := hc.block k b hk
    rw [hsh] at h1 hs' hp
    have := hq k _ s s' h1 hs' ((reKey_iff hp (sections_inRange h1) (sections_inRange hs')).mp rfl)
    rw [← this]; exact h2
  refine ⟨?_, hcons⟩
  have hlen : t.shape.length = 0 + (gss.map List.length).sum := by rw [hsh, List.length_flatten, Nat.zero_add]
  obtain ⟨hb1, hb2⟩ := groupBounds_eq 0 (gss.map List.length) (by simpa using h0)
  rw [← hlen] at hb1 hb2
  have hnil : t.shape ≠ [] := by
    cases gss with
    | nil => exact absurd rfl h0
    | cons g gss =>
      rw [hsh, List.flatten_cons]
      intro he
      exact hne g (by simp) (List.append_eq_nil_iff.mp he).1
  have hgb : groupBounds (cutsFrom 0 (gss.map List.length)) t.shape.length = boundsFrom 0 (gss.map List.length) := hb1
  rw [reshape]
  simp only [hgb, hb2]
  rw [if_neg hnil, if_neg]
  · have hm := slices_mapM (by rw [← hsh]; exact hpop : Populated gss.flatten)
    rw [← hsh] at hm
    have hm2 : (t.blocks.mapM fun kb => do
        let key := (boundsFrom 0 (gss.map List.length)).map fun ab =>
          (flattenLoop (slice ab (secCounts t.shape)) (slice ab kb.1)).1
        let sz ← blockSizes t kb.1
        let b ← reshapeBlk (newShapeLoop (cutsFull 0 (gss.map List.length)) 0 0 sz
          (List.replicate (boundsFrom 0 (gss.map List.length)).length 1)) kb.2
        (.ok (key, b) : Res (List Nat × Blk R))) =
        .ok (t.blocks.map fun kb => (reKey t.shape (gss.map fuse) kb.1, reBlk t.shape (gss.map fuse) kb)) := by
      refine mapM_ok ?_
      rintro ⟨k, b⟩ hk
      obtain ⟨s, h1, h2, h3⟩ := hc.block k b hk
      have h1' := h1
      rw [hsh] at h1'
      obtain ⟨ps, g1, rfl, rfl⟩ := grouped_of_sections h1'
      obtain ⟨f1, f2, f3⟩ := grouped_fused g1
      obtain ⟨l1, l2, l3⟩ := grouped_lengths g1
      have hkey := fusedKey_slices g1 [] [] rfl
      simp only [List.length_nil, List.nil_append] at hkey
      rw [← hsh] at hkey
      have hrk := grouped_reKey g1
      rw [← hsh] at hrk
      have hszs : ((ps.map Prod.snd).flatten).map Prod.fst = (ps.map fun p => p.2.map Prod.fst).flatten := by
        rw [List.map_flatten, List.map_map]; rfl
      have hshape : newShapeLoop (cutsFull 0 (gss.map List.length)) 0 0 (((ps.map Prod.snd).flatten).map Prod.fst)
          (List.replicate (boundsFrom 0 (gss.map List.length)).length 1) = ps.map fun p => (p.2.map Prod.fst).prod := by
        have hlens : gss.map List.length = (ps.map fun p => p.2.map Prod.fst).map List.length := by
          rw [l2, List.map_map, List.map_map]
          apply List.map_congr_left
          intro p _; simp
        have := newShape_eq (szs := ps.map fun p => p.2.map Prod.fst)
          (by intro he; apply h0; have := congrArg List.length he; simp at this; rw [this] at l3; simpa using l3)
          (by
            intro g hg he
            have h5 : g.length ∈ gss.map List.length := by rw [hlens]; exact List.mem_map_of_mem hg
            obtain ⟨g', hg', hl'⟩ := List.mem_map.mp h5
            rw [he] at hl'
            exact hne g' hg' (List.length_eq_zero_iff.mp hl'))
        rw [hszs, boundsFrom_length, hlens, List.length_map, this, List.map_map]
        rfl
      have hfst : (ps.map fun p => ((p.2.map Prod.fst).prod, charge p.2)).map Prod.fst = ps.map fun p => (p.2.map Prod.fst).prod := by
        rw [List.map_map]; rfl
      have hprod : (ps.map fun p => (p.2.map Prod.fst).prod).prod = b.dims.prod := by
        rw [h3, hszs, prod_flatten', List.map_map]; rfl
      simp only [hkey, blockSizes_eq h1, bind, Except.bind, hshape, reshapeBlk, hprod, if_true]
      simp only [reBlk, hrk, secSizes_eq f1, hfst]
    simp only [hm, bind, Except.bind]
    simp only [bind, Except.bind] at hm2
    rw [hm2]
    exact mkChecked_ok hcons.block
  · simp only [not_not, List.all_eq_true, decide_eq_true_eq]
    intro ab hab
    have := boundsFrom_ok 0 _ ab hab
    rw [← hlen] at this
    exact this

end
end QuantiT.BT
