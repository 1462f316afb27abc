import Verif.Lemmas.Packed
import Verif.Props.BTensor
import Mathlib.Data.Set.Card
/-
C100: what a tensor reports about its dimensions.
-/
namespace QuantiT
namespace PK
open Spec BT
variable {G R : Type}

theorem sectionSizes_pack {shape : Shape G} {i : Nat} {d : Dim G} (h : shape[i]? = some d) :
    sectionSizes (pack shape) i = .ok (d.map Prod.fst) ∧ sectionCqtts (pack shape) i = .ok (d.map Prod.snd) ∧
    sectionNumber (pack shape) i = .ok d.length := by
  have hi : i < shape.length := (List.getElem?_eq_some_iff.1 h).1
  have hb : (pack shape).byDim[i]? = some d.length := by simp [pack, h]
  obtain ⟨h1, h2⟩ := flatten_slice h
  refine ⟨?_, ?_, ?_⟩
  · unfold sectionSizes
    simp only [origin_pack hi.le, hb, orUb, bind, Except.bind, slice]
    rw [if_pos (by simpa only [pack, List.length_map] using h2)]
    simp only [pack, ← List.map_drop, ← List.map_take, h1]
  · unfold sectionCqtts
    simp only [origin_pack hi.le, hb, orUb, bind, Except.bind, slice]
    rw [if_pos (by simpa only [pack, List.length_map] using h2)]
    simp only [pack, ← List.map_drop, ← List.map_take, h1]
  · unfold sectionNumber
    rw [hb]
    rfl

theorem mapM_range_ok {α β : Type} (g : α → β) (f : Nat → Res β) : ∀ (l : List α) (k : Nat), (∀ i x, l[i]? = some x → f (k + i) = .ok (g x)) →
    ((List.range' k l.length).mapM f) = .ok (l.map g)
  | [], _, _ => rfl
  | x :: l, k, h => by
    rw [List.length_cons, List.range'_succ, List.mapM_cons, show f k = .ok (g x) from h 0 x rfl]
    have := mapM_range_ok g f l (k + 1) fun i y hy => by
      have := h (i + 1) y (by simpa using hy)
      rwa [show k + 1 + i = k + (i + 1) by omega]
    simp only [bind, Except.bind, this]
    rfl

theorem sizesOf_pack (shape : Shape G) : sizesOf (pack shape) = .ok (shape.map dimSize) := by
  unfold sizesOf
  rw [List.range_eq_range']
  refine mapM_range_ok dimSize _ shape 0 fun i d h => ?_
  rw [Nat.zero_add, (sectionSizes_pack h).1]
  exact congrArg _ (foldl_add_zero _)

theorem scanPacked_eq : ∀ (d : Dim G) (e : Nat), scanPacked (d.map Prod.snd) (d.map Prod.fst) e = scanQtt d e
  | [], _ => rfl
  | s :: d, e => by
    simp only [List.map_cons, scanPacked, scanQtt, scanPacked_eq d]

theorem elementQttP_eq {shape : Shape G} (i e : Nat) : elementQttP (pack shape) i e = elementQtt shape i e := by
  unfold elementQttP elementQtt
  simp only [sizesOf_pack, bind, Except.bind]
  cases h : shape[i]? with
  | none => simp [h, orUb, Res.ub]
  | some d =>
    have hi : i < shape.length := (List.getElem?_eq_some_iff.1 h).1
    obtain ⟨h1, h2, _⟩ := sectionSizes_pack h
    have hr : ¬ (pack shape).rank ≤ i := by simp [pack]; omega
    simp only [List.getElem?_map, h, Option.map_some, orUb]
    have hs : (d.map Prod.fst).foldl (· + ·) 0 = dimSize d := foldl_add_zero _
    rw [hs]
    unfold sectionQttRange
    rw [if_neg hr, h1, h2]
    simp only [scanPacked_eq]

theorem debugCheck_pack {shape : Shape G} {i : Nat} (hi : i < shape.length) (debug : Bool)
    (hd : debug = true → ∀ d ∈ shape, d ≠ []) : debugCheck debug (pack shape) i = .ok () := by
  unfold debugCheck
  cases debug with
  | false => rfl
  | true =>
    have hlen : ∀ l : Shape G, (∀ d ∈ l, d ≠ []) → l.length ≤ l.flatten.length := by
      intro l
      induction l with
      | nil => intro _; simp
      | cons d l ih =>
        intro h
        have h1 := ih fun d' hd' => h d' (by simp [hd'])
        have h2 := List.length_pos_iff.2 (h d (by simp))
        simp only [List.flatten_cons, List.length_append, List.length_cons]
        omega
    have := hlen shape (hd rfl)
    have hlt : i < (pack shape).sizes.length := by simp only [pack, List.length_map]; omega
    simp only [if_true, List.getElem?_eq_getElem hlt, orUb, bind, Except.bind]
    rw [if_neg (by simp [pack]; omega)]

/-- **C100**: a tensor built from a list of dimensions reports the sections of that list: their number, sizes and charges one by
one and by dimension, the sizes of the dimensions, and the charge of the section that contains an element.  In a debug build, for
dimensions that all have a section. -/
theorem C100_sections_partial [AddCommMonoid G] [DecidableEq G] (list : VecList G) (debug : Bool) (hd : debug = true → ∀ d ∈ list, d ≠ []) :
    ∃ p, build list = .ok p ∧ p.rank = list.length ∧ sizesOf p = .ok (list.map dimSize) ∧
      ∀ i d, list[i]? = some d →
        sectionNumber p i = .ok d.length ∧ sectionSizes p i = .ok (d.map Prod.fst) ∧ sectionCqtts p i = .ok (d.map Prod.snd) ∧
        sectionQttRange p i = .ok (d.map Prod.snd) ∧ sectionSizesCqtts p i = .ok (d.map Prod.fst, d.map Prod.snd) ∧
        (∀ b s, d[b]? = some s → sectionSize debug p i b = .ok s.1 ∧ sectionQtt debug p i b = .ok s.2 ∧
          sectionSizeCqtt debug p i b = .ok s) ∧
        (∀ e b o s, locate d e = some (b, o) → d[b]? = some s → elementQttP p i e = .ok s.2) ∧
        (∀ e, dimSize d ≤ e → elementQttP p i e = Res.throw .invalidArgument) := by
  refine ⟨pack list, build_eq list, rfl, sizesOf_pack list, fun i d h => ?_⟩
  have hi : i < list.length := (List.getElem?_eq_some_iff.1 h).1
  obtain ⟨h1, h2, h3⟩ := sectionSizes_pack h
  have hr : ¬ (pack list).rank ≤ i := by simp [pack]; omega
  refine ⟨h3, h1, h2, ?_, ?_, ?_, ?_, ?_⟩
  · unfold sectionQttRange; rw [if_neg hr, h2]
  · unfold sectionSizesCqtts; simp only [h1, h2, bind, Except.bind]
  · intro b s hb
    have hf : (list.drop i).flatten[b]? = some s := by
      rw [drop_read h, List.flatten_cons, List.getElem?_append_left (List.getElem?_eq_some_iff.1 hb).1, hb]
    have hs : (pack list).sizes[(list.take i).flatten.length + b]? = some s.1 := by
      simp only [pack, List.getElem?_map, flatten_read, hf, Option.map_some]
    have hq : (pack list).cvals[(list.take i).flatten.length + b]? = some s.2 := by
      simp only [pack, List.getElem?_map, flatten_read, hf, Option.map_some]
    have hc := debugCheck_pack hi debug hd
    refine ⟨?_, ?_, ?_⟩
    · unfold sectionSize; simp only [hc, bind, Except.bind, origin_pack hi.le, hs, orUb]
    · unfold sectionQtt; simp only [hc, bind, Except.bind, origin_pack hi.le, hq, orUb]
    · unfold sectionSizeCqtt; simp only [hc, bind, Except.bind, origin_pack hi.le, hs, hq, orUb]
  · intro e b o s hl hb
    rw [elementQttP_eq]
    have he : e < dimSize d := locate_isSome.mp ⟨_, hl⟩
    obtain ⟨s', g1, g2⟩ := (C17_element_qtt list i d h e).1 he
    rw [decompose1_eq hl, hb] at g1
    cases g1
    exact g2
  · intro e he
    rw [elementQttP_eq]
    exact (C17_element_qtt list i d h e).2 he

/-- **C100**: asking the charges of a dimension the tensor does not have throws. -/
theorem C100_bad_dimension [Zero G] (list : VecList G) (p : Packed G) (hp : build list = .ok p) (i : Nat) (hi : list.length ≤ i) :
    sectionQttRange p i = Res.throw .invalidArgument := by
  rw [build_eq] at hp
  cases hp
  unfold sectionQttRange
  rw [if_pos (by simpa [pack] using hi)]

/-- **C100** fails of sections that a dimension does not have: the size and charge of a section of a later dimension are returned,
in release and in debug builds. -/
theorem C100_bad_section_fails [Zero G] (pre : VecList G) (d : Dim G) (post : VecList G) (debug : Bool)
    (hd : debug = true → ∀ d' ∈ pre ++ d :: post, d' ≠ []) (b : Nat) (s : Nat × G) (hs : post.flatten[b]? = some s) :
    ∃ p, build (pre ++ d :: post) = .ok p ∧ sectionSize debug p pre.length (d.length + b) = .ok s.1 ∧
      sectionQtt debug p pre.length (d.length + b) = .ok s.2 := by
  refine ⟨_, build_eq _, ?_, ?_⟩
  · have hf : (pre ++ d :: post).flatten[((pre ++ d :: post).take pre.length).flatten.length + (d.length + b)]? = some s := by
      rw [flatten_read, List.drop_left' rfl, List.flatten_cons, List.getElem?_append_right (by omega), Nat.add_sub_cancel_left, hs]
    unfold sectionSize
    simp only [debugCheck_pack (shape := pre ++ d :: post) (i := pre.length) (by simp) debug hd, bind, Except.bind,
      origin_pack (shape := pre ++ d :: post) (i := pre.length) (by simp)]
    simp only [pack, List.getElem?_map, hf, Option.map_some, orUb]
  · have hf : (pre ++ d :: post).flatten[((pre ++ d :: post).take pre.length).flatten.length + (d.length + b)]? = some s := by
      rw [flatten_read, List.drop_left' rfl, List.flatten_cons, List.getElem?_append_right (by omega), Nat.add_sub_cancel_left, hs]
    unfold sectionQtt
    simp only [debugCheck_pack (shape := pre ++ d :: post) (i := pre.length) (by simp) debug hd, bind, Except.bind,
      origin_pack (shape := pre ++ d :: post) (i := pre.length) (by simp)]
    simp only [pack, List.getElem?_map, hf, Option.map_some, orUb]

/-- **C100** fails in a debug build for a dimension without sections: the check reads an array past its end. -/
theorem C100_debug_fails [Zero G] (n : Nat) (q : G) : ∃ p, build [[], [(n, q)]] = .ok p ∧
    sectionSize false p 1 0 = .ok n ∧ sectionSize true p 1 0 = Res.ub :=
  ⟨_, build_eq _, rfl, rfl⟩

/-! ### Construction from parts -/

/-- **C100**: with the arrays of a list of dimensions, the constructor from parts returns a tensor exactly if every block has a
section per dimension, the sizes of those sections, and charges that add up to the selection rule. -/
theorem C100_constructor [AddCommMonoid G] [DecidableEq G] (list : VecList G) (p : Packed G) (hp : build list = .ok p) (rule : G)
    (blocks : FM (List Nat) (Blk R)) :
    (∃ t, mkParts p rule blocks = .ok t) ↔
      ∀ kb ∈ blocks, ∃ secs, sections list kb.1 = some secs ∧ charge secs = rule ∧ kb.2.dims = secs.map Prod.fst := by
  rw [build_eq] at hp
  cases hp
  have hm : blocks.mapM (checkOne (pack list) rule) = blocks.mapM (checkBlock list rule) :=
    congrArg (fun f => blocks.mapM f) (funext fun kb => checkOne_pack list rule kb)
  have hh : (decide ((pack list).rank = (pack list).byDim.length) && decide ((pack list).byDim.sum = (pack list).sizes.length)) = true := by
    simp only [pack, List.length_map, List.length_flatten, decide_true, Bool.and_self]
  constructor
  · rintro ⟨t, ht⟩
    unfold mkParts checkTensor at ht
    simp only [hm, hh, Bool.true_and, bind, Except.bind] at ht
    have : ∃ t', mkChecked list rule blocks = .ok t' := by
      unfold mkChecked
      simp only [bind, Except.bind]
      cases h : blocks.mapM (checkBlock list rule) with
      | error e => rw [h] at ht; cases ht
      | ok oks =>
        rw [h] at ht
        dsimp only at ht ⊢
        by_cases ho : oks.all id = true
        · rw [if_pos ho]; exact ⟨_, rfl⟩
        · rw [if_neg ho] at ht; cases ht
    obtain ⟨t', ht'⟩ := this
    intro kb hkb
    exact (mkChecked_inv ht').2 kb.1 kb.2 hkb
  · intro h
    have h1 := mkChecked_ok (shape := list) (rule := rule) (bl := blocks) fun k b hkb => h (k, b) hkb
    unfold mkChecked at h1
    unfold mkParts checkTensor
    simp only [hm, hh, Bool.true_and, bind, Except.bind] at h1 ⊢
    cases h2 : blocks.mapM (checkBlock list rule) with
    | error e => rw [h2] at h1; cases h1
    | ok oks =>
      rw [h2] at h1
      dsimp only at h1 ⊢
      by_cases ho : oks.all id = true
      · rw [if_pos ho]; exact ⟨_, rfl⟩
      · rw [if_neg ho] at h1; cases h1

/-- **C100**: arrays that the constructor accepts agree in the number of dimensions and sections. -/
theorem C100_constructor_arrays [AddCommMonoid G] [DecidableEq G] (p : Packed G) (rule : G) (blocks : FM (List Nat) (Blk R)) (t)
    (ht : mkParts p rule blocks = .ok t) : p.rank = p.byDim.length ∧ p.byDim.sum = p.sizes.length := by
  unfold mkParts checkTensor at ht
  simp only [bind, Except.bind] at ht
  cases h : blocks.mapM (checkOne p rule) with
  | error e => rw [h] at ht; cases ht
  | ok oks =>
    rw [h] at ht
    dsimp only at ht
    split at ht
    · rename_i hc
      simp only [Bool.and_eq_true, decide_eq_true_eq] at hc
      exact hc.1
    · cases ht

/-- **C100** fails of the charges: the constructor accepts any number of them, and reading those of the first section of a tensor
without charges is undefined. -/
theorem C100_charges_fails [AddCommMonoid G] [DecidableEq G] (list : VecList G) (rule : G) (cvals : List G) :
    ∃ p, build list = .ok p ∧ mkParts (R := R) { p with cvals := cvals } rule [] = .ok ({ p with cvals := cvals }, rule, []) ∧
      sectionQtt false { p with cvals := ([] : List G) } 0 0 = Res.ub := by
  refine ⟨_, build_eq list, ?_, ?_⟩
  · unfold mkParts checkTensor
    have h : list.flatten.length = (list.map List.length).sum := List.length_flatten
    simp only [pack, List.length_map, h, bind, Except.bind, pure, Except.pure, List.mapM_nil, decide_true, List.all_nil, Bool.and_self,
      if_true]
  · rfl

/-! ### Counting blocks -/

section count
variable [AddCommMonoid G] [DecidableEq G]

theorem blockQuantities_pack {list : Shape G} {idx : List Nat} {secs : List (Nat × G)} (h : sections list idx = some secs) :
    blockQuantities (pack list) idx = .ok (secs.map Prod.snd) := by
  have := propsFrom_pack Prod.snd list [] idx
  unfold blockQuantities
  simp only [List.nil_append, List.flatten_nil, List.length_nil] at this
  exact this.trans (by rw [blockProps_eq h]; rfl)

open Classical in
/-- How many of the indices number `k`, …, `k + n - 1` are allowed. -/
noncomputable def hits (list : Shape G) (rule : G) (k n : Nat) : Nat :=
  ((List.range' k n).filter fun i => decide (Allowed list rule (unrank (list.map List.length) i))).length

theorem hits_succ (list : Shape G) (rule : G) (k n : Nat) :
    hits list rule k (n + 1) = (if Allowed list rule (unrank (list.map List.length) k) then 1 else 0) + hits list rule (k + 1) n := by
  unfold hits
  rw [List.range'_succ, List.filter_cons]
  by_cases h : Allowed list rule (unrank (list.map List.length) k)
  · rw [if_pos h, if_pos (by simpa using h), List.length_cons]; omega
  · rw [if_neg h, if_neg (by simpa using h)]; omega

theorem allowed_unrank {list : Shape G} (hpos : ∀ n ∈ list.map List.length, 0 < n) (rule : G) (k : Nat) :
    ∃ secs, sections list (unrank (list.map List.length) k) = some secs ∧
      (Allowed list rule (unrank (list.map List.length) k) ↔ charge secs = rule) := by
  obtain ⟨secs, hs⟩ := sections_of_inRange (shape := list) (unrank_inRange hpos k)
  refine ⟨secs, hs, ⟨?_, fun h => ⟨secs, hs, h⟩⟩⟩
  rintro ⟨s', h1, h2⟩
  rw [hs] at h1
  cases h1
  exact h2

theorem countLoop_eq {list : Shape G} (hpos : ∀ n ∈ list.map List.length, 0 < n) (rule : G) : ∀ (m k n : Nat),
    countLoop (pack list) rule m (unrank (list.map List.length) k) n = .ok (n + hits list rule k m)
  | 0, k, n => by simp [countLoop, hits]
  | m + 1, k, n => by
    obtain ⟨secs, h1, h2⟩ := allowed_unrank hpos rule k
    have hb : (pack list).byDim = list.map List.length := rfl
    have hq : (secs.map Prod.snd).foldl (· + ·) 0 = charge secs := foldl_add_zero _
    simp only [countLoop, blockQuantities_pack h1, bind, Except.bind, hb, incr_unrank hpos, hq]
    rw [countLoop_eq hpos rule m (k + 1), hits_succ]
    congr 1
    simp only [h2]
    omega

theorem hits_all {list : Shape G} (hpos : ∀ n ∈ list.map List.length, 0 < n) (rule : G) :
    hits list rule 0 (list.map List.length).prod = Set.ncard {b | Allowed list rule b} := by
  classical
  unfold hits
  have hset : {b | Allowed list rule b} = ((List.range' 0 (list.map List.length).prod).filter
      (fun i => decide (Allowed list rule (unrank (list.map List.length) i)))).toFinset.image (unrank (list.map List.length)) := by
    ext b
    simp only [Set.mem_ofPred_eq, Finset.coe_image, Set.mem_image, Finset.mem_coe, List.mem_toFinset, List.mem_filter, List.mem_range'_1,
      decide_eq_true_eq]
    constructor
    · intro h
      obtain ⟨secs, h1, h2⟩ := h
      have hin : InRange b (list.map List.length) := sections_inRange h1
      refine ⟨BT.rank (list.map List.length) b, ⟨⟨Nat.zero_le _, by simpa using rank_lt hin⟩, ?_⟩, unrank_rank hin⟩
      rw [unrank_rank hin]
      exact ⟨secs, h1, h2⟩
    · rintro ⟨i, ⟨_, h⟩, rfl⟩
      exact h
  rw [hset, Set.ncard_coe_finset, Finset.card_image_of_injOn, List.toFinset_card_of_nodup]
  · exact List.Nodup.filter _ List.nodup_range'
  · intro i hi j hj hij
    simp only [Finset.mem_coe, List.mem_toFinset, List.mem_filter, List.mem_range'_1, Nat.zero_le, Nat.zero_add, true_and] at hi hj
    have := congrArg (BT.rank (list.map List.length)) hij
    rwa [rank_unrank hpos hi.1, rank_unrank hpos hj.1] at this

omit [AddCommMonoid G] [DecidableEq G] in
theorem prod_zero : ∀ (l : List Nat), 0 ∈ l → l.prod = 0
  | [], h => by cases h
  | n :: l, h => by
    rw [List.prod_cons]
    rcases List.mem_cons.1 h with h | h
    · rw [← h, Nat.zero_mul]
    · rw [prod_zero l h, Nat.mul_zero]

theorem allowed_empty {list : Shape G} (h : ¬ ∀ n ∈ list.map List.length, 0 < n) (rule : G) :
    Set.ncard {b | Allowed list rule b} = 0 ∧ (list.map List.length).prod = 0 := by
  have h' : 0 ∈ list.map List.length := by
    by_contra hn
    exact h fun n hm => Nat.pos_of_ne_zero fun h0 => hn (h0 ▸ hm)
  refine ⟨?_, prod_zero _ h'⟩
  rw [show {b | Allowed list rule b} = ∅ from ?_, Set.ncard_empty]
  ext b
  simp only [Set.mem_ofPred_eq, Set.mem_empty_iff_false, iff_false]
  rintro ⟨secs, h1, _⟩
  have hin : InRange b (list.map List.length) := sections_inRange h1
  obtain ⟨i, hi, h0⟩ := List.mem_iff_getElem.1 h'
  have hb : i < b.length := by rw [hin.length_eq]; exact hi
  have := (List.forall₂_iff_get.1 hin).2 i hb hi
  simp only [List.get_eq_getElem] at this
  omega

theorem hits_mono (list : Shape G) (rule : G) (k : Nat) {m n : Nat} (h : m ≤ n) : hits list rule k m ≤ hits list rule k n := by
  induction m generalizing k n with
  | zero => simp [hits]
  | succ m ih =>
    cases n with
    | zero => omega
    | succ n =>
      rw [hits_succ, hits_succ]
      have := ih (k + 1) (n := n) (by omega)
      omega

/-- **C100**: `btensor_compute_max_size` of a tensor with a dimension is the number of blocks that the selection rule allows, or
less if it is told to look at fewer indices. -/
theorem C100_max_size_partial (list : VecList G) (hl : list ≠ []) (p : Packed G) (hp : build list = .ok p) (rule : G) (max : Nat) :
    ∃ n, maxSize p rule max = .ok n ∧ n ≤ Set.ncard {b | Allowed list rule b} ∧
      ((list.map List.length).prod ≤ max → n = Set.ncard {b | Allowed list rule b}) := by
  rw [build_eq] at hp
  cases hp
  have hr : (pack list).rank ≠ 0 := by simp [pack, hl]
  unfold maxSize
  rw [if_neg hr]
  by_cases hpos : ∀ n ∈ list.map List.length, 0 < n
  · have hz : List.replicate (pack list).rank 0 = unrank (list.map List.length) 0 := by
      rw [unrank_zero]; simp [pack]
    rw [hz, countLoop_eq hpos rule, Nat.zero_add]
    refine ⟨_, rfl, ?_, fun h => ?_⟩
    · rw [← hits_all hpos rule]
      exact hits_mono list rule 0 (Nat.min_le_right _ _)
    · rw [← hits_all hpos rule, show min max (pack list).byDim.prod = (list.map List.length).prod from Nat.min_eq_right h]
  · obtain ⟨h1, h2⟩ := allowed_empty hpos rule
    refine ⟨0, ?_, Nat.zero_le _, fun _ => h1.symm⟩
    have : min max (pack list).byDim.prod = 0 := by
      rw [show (pack list).byDim.prod = 0 from h2]; simp
    rw [this]
    rfl

/-- **C100** fails of a tensor without dimensions: one block is counted for every selection rule. -/
theorem C100_max_size_fails (rule : G) (hr : rule ≠ 0) (max : Nat) : ∃ p, build ([] : VecList G) = .ok p ∧ maxSize p rule max = .ok 1 ∧
    Set.ncard {b | Allowed ([] : VecList G) rule b} = 0 := by
  refine ⟨_, build_eq _, rfl, ?_⟩
  rw [show {b | Allowed ([] : VecList G) rule b} = ∅ from ?_, Set.ncard_empty]
  ext b
  simp only [Set.mem_ofPred_eq, Set.mem_empty_iff_false, iff_false]
  rintro ⟨secs, h1, h2⟩
  cases b with
  | nil => cases h1; exact hr h2.symm
  | cons => cases h1

theorem listCharge_eq (list : VecList G) : ∀ (post : Shape G) (pre : Shape G) (idx pi bs : List Nat) (secs : List (Nat × G)) (q : G),
    list = pre ++ post → idx = pi ++ bs → pi.length = pre.length → sections post bs = some secs →
    listCharge list (List.range' pre.length post.length) idx q = .ok (q + charge secs)
  | [], pre, idx, pi, bs, secs, q, _, _, _, h => by
    cases bs with
    | nil => cases h; simp [listCharge, charge]
    | cons => cases h
  | d :: ds, pre, idx, pi, bs, secs, q, h1, h2, h3, h => by
    cases bs with
    | nil => cases h
    | cons b bs =>
      obtain ⟨s, secs', g1, g2, rfl⟩ := sections_cons.1 h
      have e1 : list[pre.length]? = some d := by rw [h1]; simp
      have e2 : idx[pre.length]? = some b := by rw [h2, ← h3]; simp
      rw [List.length_cons, List.range'_succ]
      simp only [listCharge, e1, e2, g1, orUb, bind, Except.bind]
      have := listCharge_eq list ds (pre ++ [d]) idx (pi ++ [b]) bs secs' (q + s.2) (by simp [h1]) (by simp [h2]) (by simp [h3]) g2
      rw [List.length_append, List.length_singleton] at this
      rw [this]
      simp only [charge, List.map_cons, List.sum_cons, add_assoc]

theorem guessLoop_eq {list : VecList G} (hpos : ∀ n ∈ list.map List.length, 0 < n) (rule : G) : ∀ (m k n : Nat), n < 50 →
    guessLoop list rule (list.map List.length) m (unrank (list.map List.length) k) n = .ok (min 50 (n + hits list rule k m))
  | 0, k, n, hn => by simp [guessLoop, hits]; omega
  | m + 1, k, n, hn => by
    obtain ⟨secs, h1, h2⟩ := allowed_unrank (list := list) hpos rule k
    have hq := listCharge_eq list list [] _ [] _ secs 0 rfl rfl rfl h1
    rw [zero_add, List.length_nil, ← List.range_eq_range', List.nil_append] at hq
    simp only [guessLoop, hq, bind, Except.bind, incr_unrank hpos]
    rw [hits_succ]
    simp only [h2]
    by_cases hc : charge secs = rule
    · rw [if_pos hc]
      by_cases h50 : n + 1 = 50
      · rw [if_pos h50]
        congr 1
        omega
      · rw [if_neg h50, guessLoop_eq hpos rule m (k + 1) (n + 1) (by omega)]
        congr 1
        omega
    · rw [if_neg hc, if_neg (by omega), guessLoop_eq hpos rule m (k + 1) (n + 0) (by omega)]
      congr 1
      omega

/-- **C100**: the space reserved by the constructor is that of the allowed blocks, and at most of fifty. -/
theorem C100_size_guess (list : VecList G) (rule : G) :
    sizeGuess list rule (list.map List.length) = .ok (min 50 (Set.ncard {b | Allowed list rule b})) := by
  unfold sizeGuess
  by_cases hpos : ∀ n ∈ list.map List.length, 0 < n
  · have hz : List.replicate list.length 0 = unrank (list.map List.length) 0 := by
      rw [unrank_zero]; simp
    rw [hz, guessLoop_eq hpos rule _ _ _ (by omega), hits_all hpos rule, Nat.zero_add]
  · obtain ⟨h1, h2⟩ := allowed_empty hpos rule
    rw [h1, h2]
    rfl

end count

/-- The lists of sections per dimension of the other models read what the packed arrays read: every block index, valid or not. -/
theorem C100_refines [Zero G] (list : VecList G) (p : Packed G) (hp : build list = .ok p) (idx : List Nat) :
    blockQuantities p idx = (blockProps list idx).map (List.map Prod.snd) ∧
    blockSizesP p idx = (blockProps list idx).map (List.map Prod.fst) ∧
    ∀ i e, elementQttP p i e = elementQtt list i e := by
  rw [build_eq] at hp
  cases hp
  have h1 := propsFrom_pack Prod.snd list [] idx
  have h2 := propsFrom_pack Prod.fst list [] idx
  simp only [List.nil_append, List.flatten_nil, List.length_nil] at h1 h2
  exact ⟨h1, h2, fun i e => elementQttP_eq i e⟩

/-! ### A list that meets the hypotheses -/

/-- Two dimensions, with two and three sections. -/
def ex100 : VecList ℤ := [[(2, 0), (1, 1)], [(3, 0), (1, -1), (2, 1)]]

example : ∀ d ∈ ex100, d ≠ [] := by decide
example : (build ex100).map (fun p => (p.rank, p.byDim, p.sizes, p.cvals)) = .ok (2, [2, 3], [2, 1, 3, 1, 2], [0, 1, 0, -1, 1]) := by decide
example : (build ex100 >>= fun p => maxSize p 0 100) = .ok 2 := by decide
example : (build ex100 >>= fun p => sectionSize false p 0 2) = .ok 3 := by decide
example : locate (ex100[1]) 3 = some (1, 0) := by decide

end PK
end QuantiT
