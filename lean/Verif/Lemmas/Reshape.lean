import Verif.Lemmas.Contract2
import Verif.Model.Reshape
import Verif.Spec.Reshape
import Verif.Props.BTensorOps
/-
Lemmas for reshape: row-major positions, the loops, and moving blocks to another grid.
-/
set_option linter.unusedSectionVars false
namespace QuantiT.BT
open QuantiT.Spec
variable {G R : Type}

theorem rowMajor_eq {ns is : List Nat} (h : is.length = ns.length) : rowMajor ns is = flat ns is := by
  have : ∀ (ns is : List Nat) (a : Nat), is.length = ns.length →
      (ns.zip is).foldl (fun acc ni => acc * ni.1 + ni.2) a = a * ns.prod + flat ns is := by
    intro ns
    induction ns with
    | nil => intro is a h; cases is <;> simp_all [flat]
    | cons n ns ih =>
      intro is a h
      cases is with
      | nil => simp at h
      | cons i is =>
        simp only [List.zip_cons_cons, List.foldl_cons, List.prod_cons, flat]
        rw [ih is _ (by simpa using h)]
        ring
  rw [rowMajor, this ns is 0 h]; simp

theorem flattenLoop_eq : ∀ {ns is : List Nat}, is.length = ns.length → flattenLoop ns is = (flat ns is, ns.prod)
  | [], [], _ => rfl
  | [], _ :: _, h => by simp at h
  | _ :: _, [], h => by simp at h
  | n :: ns, i :: is, h => by
    have ih := flattenLoop_eq (ns := ns) (is := is) (by simpa using h)
    simp only [flattenLoop] at ih ⊢
    simp only [List.zip_cons_cons, List.foldr_cons, ih, flat, List.prod_cons]
    rw [Prod.mk.injEq]; constructor <;> ring

theorem unflattenLoop_eq : ∀ {ns : List Nat}, (∀ n ∈ ns, 0 < n) → ∀ k q, k < ns.prod →
    unflattenLoop ns (q * ns.prod + k) = .ok (unflat ns k, q)
  | [], _, k, q, hk => by simp at hk; subst hk; simp [unflattenLoop, unflat]
  | n :: ns, hp, k, q, hk => by
    rw [List.prod_cons] at hk
    have hn : 0 < n := hp n (by simp)
    have hpp : 0 < ns.prod := prod_pos fun m hm => hp m (by simp [hm])
    have e : q * (n * ns.prod) + k = (q * n + k / ns.prod) * ns.prod + k % ns.prod := by
      have := Nat.div_add_mod k ns.prod
      calc q * (n * ns.prod) + k = q * (n * ns.prod) + (ns.prod * (k / ns.prod) + k % ns.prod) := by rw [this]
        _ = _ := by ring
    have hd : k / ns.prod < n := (Nat.div_lt_iff_lt_mul hpp).mpr hk
    rw [List.prod_cons, e]
    simp only [unflattenLoop]
    rw [unflattenLoop_eq (fun m hm => hp m (by simp [hm])) _ _ (Nat.mod_lt _ hpp)]
    simp only [bind, Except.bind, unflat]
    rw [if_neg (by omega), Nat.mul_comm q n, Nat.mul_add_mod, Nat.mod_eq_of_lt hd, Nat.mul_add_div hn, Nat.div_eq_of_lt hd]
    rfl

/-! ### The right odometer counts in row-major order -/

theorem rank_append {n1 n2 i1 i2 : List Nat} (h : i1.length = n1.length) :
    rank (n1 ++ n2) (i1 ++ i2) = rank n1 i1 + n1.prod * rank n2 i2 := by
  induction n1 generalizing i1 with
  | nil => cases i1 <;> simp_all [rank]
  | cons n n1 ih =>
    cases i1 with
    | nil => simp at h
    | cons i i1 =>
      simp only [List.cons_append, rank, List.prod_cons, ih (i1 := i1) (by simpa using h)]
      ring

theorem rank_reverse : ∀ {ns is : List Nat}, is.length = ns.length → rank ns.reverse is.reverse = flat ns is
  | [], [], _ => rfl
  | [], _ :: _, h => by simp at h
  | _ :: _, [], h => by simp at h
  | n :: ns, i :: is, h => by
    have hl : is.length = ns.length := by simpa using h
    rw [List.reverse_cons, List.reverse_cons, rank_append (by simp [hl]), rank_reverse hl, List.prod_reverse]
    simp [rank, flat]; ring

theorem inRange_reverse {ns is : List Nat} (h : InRange is ns) : InRange is.reverse ns.reverse := List.rel_reverse h

theorem unflat_eq_unrank {ns : List Nat} (hp : ∀ n ∈ ns, 0 < n) {k : Nat} (hk : k < ns.prod) :
    unflat ns k = (unrank ns.reverse k).reverse := by
  have h1 := unflat_inRange hk
  have h2 := rank_reverse (List.Forall₂.length_eq h1)
  rw [flat_unflat hk] at h2
  have h3 := unrank_rank (inRange_reverse h1)
  rw [h2] at h3
  rw [h3, List.reverse_reverse]

theorem incrRight_unflat {ns : List Nat} (hp : ∀ n ∈ ns, 0 < n) {k : Nat} (hk : k < ns.prod) :
    incrRight ns (unflat ns k) = if k + 1 < ns.prod then unflat ns (k + 1) else List.replicate ns.length 0 := by
  have hp' : ∀ n ∈ ns.reverse, 0 < n := fun n hn => hp n (List.mem_reverse.mp hn)
  rw [incrRight, unflat_eq_unrank hp hk, List.reverse_reverse, incr_unrank hp']
  split
  · rename_i h; rw [unflat_eq_unrank hp h]
  · have e : k + 1 = 0 + ns.reverse.prod := by rw [List.prod_reverse]; omega
    rw [e, unrank_prod hp', unrank_zero]; simp

theorem unflat_zero (ns : List Nat) : unflat ns 0 = List.replicate ns.length 0 := by
  induction ns with
  | nil => rfl
  | cons n ns ih => simp [unflat, ih, List.replicate_succ]

theorem flat_zero (ns : List Nat) (m : Nat) : flat ns (List.replicate m 0) = 0 := by
  induction ns generalizing m with
  | nil => cases m <;> rfl
  | cons n ns ih => cases m <;> simp [flat, List.replicate_succ, ih]

theorem unflat_any {ns : List Nat} {k : Nat} (hk : k < ns.prod) (h0 : k ≠ 0) :
    (unflat ns k).any (fun x => decide (x ≠ 0)) = true := by
  by_contra hc
  rw [Bool.not_eq_true, any_ne_zero_iff] at hc
  apply h0
  rw [← flat_unflat hk, hc, flat_zero]

theorem zeros_any (n : Nat) : (List.replicate n 0).any (fun x => decide (x ≠ 0)) = false := by
  rw [any_ne_zero_iff]; simp

theorem gridLoop_from {α : Type} {ns : List Nat} (hp : ∀ n ∈ ns, 0 < n) {body : List Nat → Res α} {f : List Nat → α}
    (hb : ∀ i, InRange i ns → body i = .ok (f i)) : ∀ (n k : Nat), k < ns.prod → ns.prod = k + n →
    gridLoop ns body n (unflat ns k) = .ok ((List.range n).map fun j => f (unflat ns (k + j)))
  | 0, k, hk, hn => by omega
  | n + 1, k, hk, hn => by
    rw [gridLoop, hb _ (unflat_inRange hk), incrRight_unflat hp hk]
    simp only [bind, Except.bind]
    rw [List.range_succ_eq_map, List.map_cons, List.map_map]
    by_cases hc : k + 1 < ns.prod
    · rw [if_pos hc, if_pos (unflat_any hc (by omega)), gridLoop_from hp hb n (k + 1) hc (by omega)]
      simp only [Nat.add_zero, Except.ok.injEq, List.cons.injEq, true_and]
      apply List.map_congr_left
      intro j _
      simp only [Function.comp]
      congr 2; omega
    · have h0 : n = 0 := by omega
      rw [if_neg hc, zeros_any]
      subst h0
      simp

theorem gridLoop_eq {α : Type} {ns : List Nat} (hp : ∀ n ∈ ns, 0 < n) {body : List Nat → Res α} {f : List Nat → α}
    (hb : ∀ i, InRange i ns → body i = .ok (f i)) :
    gridLoop ns body ns.prod (List.replicate ns.length 0) = .ok ((indices ns).map f) := by
  rw [← unflat_zero, gridLoop_from hp hb _ 0 (prod_pos hp) (by omega), indices_eq, allIdx_eq, List.map_map]
  congr 2; funext j; simp

theorem compatLoop_from {c c' : List Nat} (hp : ∀ n ∈ c, 0 < n) (hp' : ∀ n ∈ c', 0 < n) (hpp : c.prod = c'.prod)
    {same : List Nat → List Nat → Res Bool} {f : Nat → Bool}
    (hs : ∀ k, k < c.prod → same (unflat c k) (unflat c' k) = .ok (f k)) : ∀ (n k : Nat), k < c.prod → c.prod ≤ k + n →
    compatLoop c c' same n (unflat c k) (unflat c' k) = some (.ok (decide (∀ j, k ≤ j → j < c.prod → f j = true)))
  | 0, k, hk, hn => by omega
  | n + 1, k, hk, hn => by
    rw [compatLoop, hs k hk]
    rcases hf : f k with _ | _
    · simp only [Option.some.injEq, Except.ok.injEq]
      symm; rw [decide_eq_false_iff_not]
      intro h; rw [h k (Nat.le_refl _) hk] at hf; cases hf
    · simp only []
      rw [incrRight_unflat hp hk, incrRight_unflat hp' (by rw [← hpp]; exact hk)]
      by_cases hc : k + 1 < c.prod
      · rw [if_pos hc, if_pos (unflat_any hc (by omega)), if_pos (by rw [← hpp]; exact hc),
          compatLoop_from hp hp' hpp hs n (k + 1) hc (by omega)]
        simp only [Option.some.injEq, Except.ok.injEq, decide_eq_decide]
        constructor
        · intro h j h1 h2
          rcases Nat.eq_or_lt_of_le h1 with rfl | h1
          · exact hf
          · exact h j h1 h2
        · intro h j h1 h2; exact h j (by omega) h2
      · rw [if_neg hc, zeros_any]
        simp only [Bool.false_eq_true, if_false, Option.some.injEq, Except.ok.injEq]
        symm; rw [decide_eq_true_iff]
        intro j h1 h2
        have : j = k := by omega
        rw [this]; exact hf

theorem secCounts_pos {sh : Shape G} (h : Populated sh) : ∀ n ∈ secCounts sh, 0 < n := by
  intro n hn
  obtain ⟨d, hd, rfl⟩ := List.mem_map.mp hn
  exact List.length_pos_iff.mpr (h d hd)

theorem compatible_eq {a b : Shape G} (ha : Populated a) (hb : Populated b)
    (hpp : (secCounts a).prod = (secCounts b).prod) {same : List Nat → List Nat → Res Bool} {f : Nat → Bool}
    (hs : ∀ k, k < (secCounts a).prod → same (unflat (secCounts a) k) (unflat (secCounts b) k) = .ok (f k)) :
    compatible a b same = .ok (decide (∀ j, j < (secCounts a).prod → f j = true)) := by
  have hpos := prod_pos (secCounts_pos ha)
  have := compatLoop_from (secCounts_pos ha) (secCounts_pos hb) hpp hs (max 1 (secCounts a).prod) 0 hpos (by omega)
  rw [unflat_zero, unflat_zero] at this
  simp only [secCounts, List.length_map] at this
  simp only [compatible, secCounts, this, Option.getD_some]
  refine congrArg Except.ok (decide_eq_decide.mpr ⟨fun h j hj => h j (by omega) hj, fun h j _ hj => h j hj⟩)

theorem foldl_mul_one (l : List Nat) : l.foldl (· * ·) 1 = l.prod := by
  have : ∀ a, l.foldl (· * ·) a = a * l.prod := by
    induction l with
    | nil => simp
    | cons x l ih => intro a; simp [ih, Nat.mul_assoc]
  rw [this, Nat.one_mul]

/-! ### Fused dimensions -/

section
variable [AddCommMonoid G] [DecidableEq G]

theorem fuseDim_eq {ds : Shape G} (h : Populated ds) : fuseDim ds = .ok (fuse ds) := by
  have hl : ds.length = (secCounts ds).length := by simp [secCounts]
  rw [fuseDim, hl, gridLoop_eq (secCounts_pos h) (f := fun j => match sections ds j with
      | some s => ((s.map Prod.fst).prod, charge s)
      | none => (0, 0))]
  · rfl
  · intro i hi
    obtain ⟨s, hs⟩ := sections_of_inRange hi
    rw [blockProps_eq hs, hs]
    simp only [bind, Except.bind, foldl_mul_one, foldl_add_zero]
    rfl

theorem fuse_length (ds : Shape G) : (fuse ds).length = (secCounts ds).prod := by
  rw [fuse, List.length_map, indices_eq, allIdx_length]; rfl

theorem fuse_getElem? {ds : Shape G} {b s} (h : sections ds b = some s) :
    (fuse ds)[flat (secCounts ds) b]? = some ((s.map Prod.fst).prod, charge s) := by
  have hr := sections_inRange h
  have hlt := flat_lt hr
  rw [fuse, indices_eq, allIdx_eq, List.map_map, List.getElem?_map]
  rw [show (ds.map List.length).prod = (secCounts ds).prod from rfl, List.getElem?_range hlt]
  simp only [Option.map_some, Function.comp]
  have e : unflat (ds.map List.length) (flat (secCounts ds) b) = b := unflat_flat hr
  rw [e, h]

/-! ### Moving the blocks to another grid -/

/-- The block index at the same row-major position of another grid. -/
def reKey (sh sh' : Shape G) (k : List Nat) : List Nat := unflat (secCounts sh') (flat (secCounts sh) k)

/-- A block reshaped to the sizes of its place in another grid. -/
def reBlk (sh sh' : Shape G) (kb : List Nat × Blk R) : Blk R :=
  ⟨secSizes sh' (reKey sh sh' kb.1),
    fun o => kb.2.f (unflat kb.2.dims (flat (secSizes sh' (reKey sh sh' kb.1)) o))⟩

/-- All blocks moved to another grid. -/
def retile (sh sh' : Shape G) (bl : FM (List Nat) (Blk R)) : FM (List Nat) (Blk R) :=
  sortKeys (bl.map fun kb => (reKey sh sh' kb.1, reBlk sh sh' kb))

theorem reKey_inRange {sh sh' : Shape G} (hp : (secCounts sh).prod = (secCounts sh').prod) {k : List Nat}
    (hk : InRange k (secCounts sh)) : InRange (reKey sh sh' k) (secCounts sh') :=
  unflat_inRange (by rw [← hp]; exact flat_lt hk)

theorem reKey_reKey {sh sh' : Shape G} (hp : (secCounts sh).prod = (secCounts sh').prod) {k : List Nat}
    (hk : InRange k (secCounts sh)) : reKey sh' sh (reKey sh sh' k) = k := by
  rw [reKey, reKey, flat_unflat (by rw [← hp]; exact flat_lt hk), unflat_flat hk]

theorem flat_reKey {sh sh' : Shape G} (hp : (secCounts sh).prod = (secCounts sh').prod) {k : List Nat}
    (hk : InRange k (secCounts sh)) : flat (secCounts sh') (reKey sh sh' k) = flat (secCounts sh) k :=
  flat_unflat (by rw [← hp]; exact flat_lt hk)

theorem reKey_iff {sh sh' : Shape G} (hp : (secCounts sh).prod = (secCounts sh').prod) {k k' : List Nat}
    (hk : InRange k (secCounts sh)) (hk' : InRange k' (secCounts sh')) :
    reKey sh sh' k = k' ↔ rowMajor (secCounts sh) k = rowMajor (secCounts sh') k' := by
  rw [rowMajor_eq (List.Forall₂.length_eq hk), rowMajor_eq (List.Forall₂.length_eq hk')]
  constructor
  · rintro rfl; rw [flat_reKey hp hk]
  · intro h; rw [reKey, h, unflat_flat hk']

theorem retile_lookup {sh sh' : Shape G} {rule : G} {bl : FM (List Nat) (Blk R)} (hc : Conserving sh rule bl)
    (hp : (secCounts sh).prod = (secCounts sh').prod) :
    Sorted (retile sh sh' bl) ∧ ∀ k, InRange k (secCounts sh) →
      lookup (retile sh sh' bl) (reKey sh sh' k) = (lookup bl k).map fun b => reBlk sh sh' (k, b) := by
  have hin : ∀ x ∈ bl, InRange x.1 (secCounts sh) := by
    rintro ⟨k, b⟩ hx
    obtain ⟨s, h1, _⟩ := hc.block k b hx
    exact sections_inRange h1
  have hinj : ∀ x ∈ bl, ∀ k, InRange k (secCounts sh) → reKey sh sh' x.1 = reKey sh sh' k → x.1 = k := by
    intro x hx k hk h
    rw [← reKey_reKey hp (hin x hx), h, reKey_reKey hp hk]
  have hsorted : Sorted (retile sh sh' bl) := by
    apply sortKeys_sorted
    rw [List.map_map]
    have hnd := nodup_of_sorted hc.sorted
    have : (bl.map (Prod.fst ∘ fun kb : List Nat × Blk R => (reKey sh sh' kb.1, reBlk sh sh' kb))) =
        (bl.map Prod.fst).map (reKey sh sh') := by rw [List.map_map]; rfl
    rw [this]
    refine List.Nodup.map_on ?_ hnd
    intro x hx y hy hxy
    obtain ⟨x', hx', rfl⟩ := List.mem_map.mp hx
    obtain ⟨y', hy', rfl⟩ := List.mem_map.mp hy
    exact hinj x' hx' _ (hin y' hy') hxy
  refine ⟨hsorted, ?_⟩
  intro k hk
  rcases hl : lookup bl k with _ | b
  · rw [Option.map_none, lookup_eq_none]
    intro x hx hxe
    rw [retile, (sortKeys_perm _).mem_iff, List.mem_map] at hx
    obtain ⟨y, hy, rfl⟩ := hx
    rw [lookup_eq_none] at hl
    exact hl y hy (hinj y hy k hk hxe)
  · rw [Option.map_some, lookup_iff_mem hsorted, retile, (sortKeys_perm _).mem_iff, List.mem_map]
    exact ⟨(k, b), mem_of_lookup hl, rfl⟩

theorem retile_conserving {sh sh' : Shape G} {rule rule' : G} {bl : FM (List Nat) (Blk R)} (hc : Conserving sh rule bl)
    (hp : (secCounts sh).prod = (secCounts sh').prod)
    (hch : ∀ k b s', (k, b) ∈ bl → sections sh' (reKey sh sh' k) = some s' → charge s' = rule') :
    Conserving sh' rule' (retile sh sh' bl) := by
  refine ⟨(retile_lookup hc hp).1, ?_⟩
  intro k b hk
  rw [retile, (sortKeys_perm _).mem_iff, List.mem_map] at hk
  obtain ⟨⟨k0, b0⟩, hm, he⟩ := hk
  simp only [Prod.mk.injEq] at he
  obtain ⟨rfl, rfl⟩ := he
  obtain ⟨s, h1, _⟩ := hc.block k0 b0 hm
  obtain ⟨s', hs'⟩ := sections_of_inRange (reKey_inRange hp (sections_inRange h1))
  exact ⟨s', hs', hch k0 b0 s' hm hs', by rw [reBlk]; exact secSizes_eq hs'⟩

/-- Retiled tensors have the same entries at aligned elements. -/
theorem retile_entry [Zero R] {sh sh' : Shape G} {rule : G} {bl : FM (List Nat) (Blk R)} (hc : Conserving sh rule bl)
    (hp : (secCounts sh).prod = (secCounts sh').prod) {e e' : List Nat} (ha : Aligned sh sh' e e') :
    entry sh' (retile sh sh' bl) e' = entry sh bl e := by
  obtain ⟨b, o, s, b', o', s', h1, h2, h3, h4, h5, h6⟩ := ha
  have hb := sections_inRange h2
  have hb' := sections_inRange h4
  have hk : reKey sh sh' b = b' := (reKey_iff hp hb hb').mpr h5
  have ho := locateAll_offset h1 h2
  have ho' := locateAll_offset h3 h4
  rw [rowMajor_eq (List.Forall₂.length_eq ho), rowMajor_eq (List.Forall₂.length_eq ho')] at h6
  simp only [entry, h1, h3]
  rw [← hk, (retile_lookup hc hp).2 b hb]
  rcases hl : lookup bl b with _ | B
  · rfl
  · obtain ⟨s1, q1, q2, q3⟩ := hc.block b B (mem_of_lookup hl)
    rw [h2] at q1; cases q1
    simp only [Option.map_some, reBlk]
    rw [hk, secSizes_eq h4, ← h6, q3, unflat_flat ho]

/-- Moving to another grid and back restores every block. -/
theorem retile_retile {sh sh' : Shape G} {rule rule' : G} {bl : FM (List Nat) (Blk R)} (hc : Conserving sh rule bl)
    (hv : SameVolumes sh sh')
    (hch : ∀ k b s', (k, b) ∈ bl → sections sh' (reKey sh sh' k) = some s' → charge s' = rule') :
    SameBlocks (retile sh' sh (retile sh sh' bl)) bl := by
  obtain ⟨hp, hv⟩ := hv
  have hp : (secCounts sh).prod = (secCounts sh').prod := hp
  have hc' := retile_conserving hc hp hch
  obtain ⟨hs1, hl1⟩ := retile_lookup hc hp
  obtain ⟨hs2, hl2⟩ := retile_lookup hc' hp.symm
  have key : ∀ k, InRange k (secCounts sh) → lookup (retile sh' sh (retile sh sh' bl)) k =
      (lookup bl k).map fun b => reBlk sh' sh (reKey sh sh' k, reBlk sh sh' (k, b)) := by
    intro k hk
    have := hl2 _ (reKey_inRange hp hk)
    rw [reKey_reKey hp hk, hl1 k hk] at this
    rw [this, Option.map_map]; rfl
  have hc2 : Conserving sh rule (retile sh' sh (retile sh sh' bl)) := by
    apply retile_conserving hc' hp.symm
    intro k b s hk hs
    rw [retile, (sortKeys_perm _).mem_iff, List.mem_map] at hk
    obtain ⟨⟨k0, b0⟩, hm, he⟩ := hk
    simp only [Prod.mk.injEq] at he
    obtain ⟨rfl, rfl⟩ := he
    obtain ⟨s0, h1, h2, _⟩ := hc.block k0 b0 hm
    rw [reKey_reKey hp (sections_inRange h1), h1] at hs
    cases hs; exact h2
  have hrange : ∀ k b, lookup bl k = some b → InRange k (secCounts sh) := by
    intro k b h
    obtain ⟨s, h1, _⟩ := hc.block k b (mem_of_lookup h)
    exact sections_inRange h1
  refine sameBlocks_of_lookup hs2 hc.sorted ?_ ?_
  · intro k
    by_cases hk : InRange k (secCounts sh)
    · rw [key k hk]; simp
    · have h1 : lookup bl k = none := by
        rcases h : lookup bl k with _ | b
        · rfl
        · exact absurd (hrange k b h) hk
      have h2 : lookup (retile sh' sh (retile sh sh' bl)) k = none := by
        rcases h : lookup (retile sh' sh (retile sh sh' bl)) k with _ | b
        · rfl
        · obtain ⟨s, q1, _⟩ := hc2.block k b (mem_of_lookup h)
          exact absurd (sections_inRange q1) hk
      rw [h1, h2]
  · intro k a b ha hb
    have hk := hrange k b hb
    obtain ⟨s, h1, _, h3⟩ := hc.block k b (mem_of_lookup hb)
    obtain ⟨s', h4⟩ := sections_of_inRange (reKey_inRange hp hk)
    have hvol := hv k _ s s' h1 h4 ((reKey_iff hp hk (sections_inRange h4)).mp rfl)
    rw [key k hk, hb] at ha
    simp only [Option.map_some, Option.some.injEq] at ha
    subst ha
    have e1 : secSizes sh (reKey sh' sh (reKey sh sh' k)) = b.dims := by
      rw [reKey_reKey hp hk, secSizes_eq h1, h3]
    refine ⟨by simp only [reBlk]; exact e1, ?_⟩
    intro o ho
    simp only [reBlk, e1] at ho ⊢
    have hlt := flat_lt ho
    rw [secSizes_eq h4, flat_unflat, unflat_flat ho]
    rw [← hvol, ← h3]; exact hlt

end
end QuantiT.BT
