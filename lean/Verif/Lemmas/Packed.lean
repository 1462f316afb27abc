import Verif.Model.Packed
import Verif.Lemmas.Permute
/-
The packed arrays of a list of dimensions.
-/
namespace QuantiT
namespace PK
open Spec BT
variable {G R : Type}

/-- The packed arrays of a list of dimensions. -/
def pack (shape : Shape G) : Packed G :=
  ⟨shape.length, shape.map List.length, shape.flatten.map Prod.fst, shape.flatten.map Prod.snd⟩

theorem writeFrom_ok {α : Type} : ∀ (xs pre rest : List α), rest.length = xs.length →
    writeFrom xs pre.length (pre ++ rest) = .ok (pre ++ xs) := by
  intro xs
  induction xs with
  | nil => intro pre rest h; rw [List.length_eq_zero_iff.1 h]; rfl
  | cons x xs ih =>
    intro pre rest h
    cases rest with
    | nil => simp at h
    | cons r rest =>
      unfold writeFrom
      rw [if_pos (by simp)]
      have h2 : (pre ++ r :: rest).set pre.length x = (pre ++ [x]) ++ rest := by
        rw [List.set_append_right _ _ (Nat.le_refl _)]; simp
      rw [h2, show pre.length + 1 = (pre ++ [x]).length by simp, ih (pre ++ [x]) rest (by simpa using h)]
      simp

theorem shapesFromList_ok (list : VecList G) : shapesFromList list list.length = .ok (list.map List.length) := by
  unfold shapesFromList
  have key : ∀ (k : Nat), k ≤ list.length → (List.range k).foldlM (m := Res) (fun out i => do
      let d ← orUb list[i]?
      if i < out.length then .ok (out.set i d.length) else Res.ub) (List.replicate list.length 0) =
      .ok ((list.take k).map List.length ++ List.replicate (list.length - k) 0) := by
    intro k
    induction k with
    | zero => intro _; simp [pure, Except.pure]
    | succ k ih =>
      intro hk
      rw [List.range_succ, List.foldlM_append, ih (by omega)]
      have hlt : k < list.length := by omega
      simp only [List.foldlM_cons, List.foldlM_nil, bind, Except.bind, List.getElem?_eq_getElem hlt, orUb]
      rw [if_pos (by simp; omega)]
      show Except.ok _ = Except.ok _
      congr 1
      rw [show list.length - k = (list.length - (k + 1)) + 1 by omega, List.replicate_succ]
      have hl : ((list.take k).map List.length).length = k := by simp; omega
      rw [List.set_append_right _ _ (by omega), hl, Nat.sub_self, List.set_cons_zero, List.take_succ_eq_append_getElem hlt]
      simp only [List.map_append, List.map_cons, List.map_nil, List.append_assoc, List.singleton_append]
  rw [key _ (Nat.le_refl _)]
  simp

theorem build_eq [Zero G] (list : VecList G) : build list = .ok (pack list) := by
  have h1 : ∀ {α : Type} (z : α) (f : Nat × G → α), writeFrom (list.flatMap fun d => d.map f) 0
      (List.replicate (list.map List.length).sum z) = .ok (list.flatten.map f) := by
    intro α z f
    have hm : (list.flatMap fun d => d.map f) = list.flatten.map f := by
      rw [List.flatMap_def, List.map_flatten]
    have := writeFrom_ok (list.flatMap fun d => d.map f) [] (List.replicate (list.map List.length).sum z)
      (by rw [hm, List.length_map, List.length_flatten, List.length_replicate])
    simpa [hm] using this
  unfold build
  simp only [shapesFromList_ok, bind, Except.bind, sizesFromList, cvalsFromList, h1]
  have : (list.flatten.map Prod.fst).length = (list.map List.length).sum := by
    rw [List.length_map, List.length_flatten]
  rw [this, h1]
  rfl

theorem origin_pack {shape : Shape G} {i : Nat} (h : i ≤ shape.length) :
    origin (pack shape) i = .ok (shape.take i).flatten.length := by
  unfold origin pack
  rw [if_pos (by simpa using h)]
  simp [List.map_take, List.length_flatten]

theorem flatten_read {α : Type} : ∀ (l : List (List α)) (i b : Nat),
    l.flatten[(l.take i).flatten.length + b]? = (l.drop i).flatten[b]? := by
  intro l i b
  conv_lhs => rw [← List.take_append_drop i l, List.flatten_append]
  rw [List.getElem?_append_right (by simp only [List.take_append_drop]; omega)]
  simp only [List.take_append_drop]
  congr 1
  omega

theorem flatten_slice {α : Type} {l : List (List α)} {i : Nat} {d : List α} (h : l[i]? = some d) :
    (l.flatten.drop (l.take i).flatten.length).take d.length = d ∧ (l.take i).flatten.length + d.length ≤ l.flatten.length := by
  have hl : l = l.take i ++ d :: l.drop (i + 1) := by
    obtain ⟨hi, h⟩ := List.getElem?_eq_some_iff.1 h
    rw [← h, List.getElem_cons_drop, List.take_append_drop]
  have hf : l.flatten = (l.take i).flatten ++ (d ++ (l.drop (i + 1)).flatten) := by
    conv_lhs => rw [hl]
    simp
  constructor
  · rw [hf, List.drop_left]; simp
  · rw [hf]; simp only [List.length_append]; omega

theorem drop_read {α : Type} {l : List (List α)} {i : Nat} {d : List α} (h : l[i]? = some d) :
    l.drop i = d :: l.drop (i + 1) := by
  obtain ⟨hi, h⟩ := List.getElem?_eq_some_iff.1 h
  rw [← h, List.getElem_cons_drop]

theorem sizeRead {shape : Shape G} {i : Nat} (h : i ≤ shape.length) (b : Nat) :
    sectionSize false (pack shape) i b = orUb (((shape.drop i).flatten[b]?).map Prod.fst) := by
  unfold sectionSize debugCheck
  simp only [Bool.false_eq_true, if_false, bind, Except.bind, origin_pack h]
  simp only [pack, List.getElem?_map, flatten_read]

theorem qttRead {shape : Shape G} {i : Nat} (h : i ≤ shape.length) (b : Nat) :
    sectionQtt false (pack shape) i b = orUb (((shape.drop i).flatten[b]?).map Prod.snd) := by
  unfold sectionQtt debugCheck
  simp only [Bool.false_eq_true, if_false, bind, Except.bind, origin_pack h]
  simp only [pack, List.getElem?_map, flatten_read]

theorem propsFrom_pack {α : Type} (f : Nat × G → α) : ∀ (post pre : Shape G) (idx : List Nat),
    propsFrom ((pre ++ post).flatten.map f) (post.map List.length) idx pre.flatten.length =
      (blockProps post idx).map (List.map f) := by
  intro post
  induction post with
  | nil =>
    intro pre idx
    cases idx with
    | nil =>
      simp only [List.append_nil, List.map_nil, propsFrom, blockProps, Except.map]
      rw [if_pos (by rw [List.length_map])]
    | cons b bs => simp [propsFrom, blockProps, Except.map, Res.ub]
  | cons d ds ih =>
    intro pre idx
    cases idx with
    | nil => simp [propsFrom, blockProps, Except.map, Res.ub]
    | cons b bs =>
      have hr := flatten_read (pre ++ d :: ds) pre.length b
      simp only [List.take_left', List.drop_left'] at hr
      have h2 : pre.flatten.length + d.length = (pre ++ [d]).flatten.length := by simp
      have ih' := ih (pre ++ [d]) bs
      rw [show (pre ++ [d]) ++ ds = pre ++ d :: ds by simp] at ih'
      simp only [List.map_cons, propsFrom, blockProps, List.getElem?_map, hr, h2, ih', bind, Except.bind]
      cases hb : (d :: ds).flatten[b]? with
      | none => simp [orUb, Except.map, Res.ub]
      | some s =>
        simp only [Option.map_some, orUb]
        cases blockProps ds bs <;> simp [Except.map]

theorem checkComps_pack : ∀ (post pre : Shape G) (idx : List Nat),
    (checkComps (pack (pre ++ post)) pre.length idx).map (fun c => (c.1 && decide (idx.length = post.length), c.2)) =
      (checkIndex post idx).map fun r => (r.1, r.2.map Prod.snd) := by
  intro post
  induction post with
  | nil =>
    intro pre idx
    cases idx with
    | nil => simp [checkComps, checkIndex, Except.map]
    | cons b bs => simp [checkComps, checkIndex, Except.map, pack, orUb, bind, Except.bind, Res.ub]
  | cons d ds ih =>
    intro pre idx
    cases idx with
    | nil => simp [checkComps, checkIndex, Except.map]
    | cons b bs =>
      have ih' := ih (pre ++ [d]) bs
      rw [show (pre ++ [d]) ++ ds = pre ++ d :: ds by simp, show (pre ++ [d]).length = pre.length + 1 by simp] at ih'
      have hn : (pack (pre ++ d :: ds)).byDim[pre.length]? = some d.length := by simp [pack]
      have hq := qttRead (shape := pre ++ d :: ds) (i := pre.length) (by simp) b
      rw [List.drop_left' rfl] at hq
      simp only [checkComps, checkIndex, hn, hq, orUb, bind, Except.bind]
      cases hb : (d :: ds).flatten[b]? with
      | none => simp [orUb, Except.map, Res.ub]
      | some x =>
        simp only [Option.map_some, orUb]
        cases h1 : checkComps (pack (pre ++ d :: ds)) (pre.length + 1) bs with
        | error e =>
          rw [h1] at ih'
          cases h2 : checkIndex ds bs with
          | error e' => rw [h2] at ih'; simpa [Except.map] using ih'
          | ok r => rw [h2] at ih'; simp [Except.map] at ih'
        | ok c =>
          rw [h1] at ih'
          cases h2 : checkIndex ds bs with
          | error e' => rw [h2] at ih'; simp [Except.map] at ih'
          | ok r =>
            rw [h2] at ih'
            simp only [Except.map, Except.ok.injEq, Prod.mk.injEq] at ih'
            simp only [Except.map, List.length_cons, Nat.add_right_cancel_iff, List.map_cons, ← ih'.2, ← ih'.1, Bool.and_assoc]

theorem checkSizes_pack : ∀ (post pre : Shape G) (idx dims : List Nat) (r : Bool × List (Nat × G)), idx.length = post.length →
    dims.length = post.length → checkIndex post idx = .ok r →
    checkSizes (pack (pre ++ post)) pre.length dims idx = .ok (decide (dims = r.2.map Prod.fst)) := by
  intro post
  induction post with
  | nil =>
    intro pre idx dims r h1 h2 h3
    rw [List.length_nil, List.length_eq_zero_iff] at h1 h2
    subst h1 h2
    cases h3
    rfl
  | cons d ds ih =>
    intro pre idx dims r h1 h2 h3
    cases idx with
    | nil => simp at h1
    | cons b bs =>
      cases dims with
      | nil => simp at h2
      | cons s ss =>
        simp only [checkIndex, bind, Except.bind] at h3
        cases hb : (d :: ds).flatten[b]? with
        | none => rw [hb] at h3; simp [Res.ub] at h3
        | some x =>
          rw [hb] at h3
          cases h4 : checkIndex ds bs with
          | error e => rw [h4] at h3; simp at h3
          | ok q =>
            rw [h4] at h3
            simp only [Except.ok.injEq] at h3
            subst h3
            have ih' := ih (pre ++ [d]) bs ss q (by simpa using h1) (by simpa using h2) h4
            rw [show (pre ++ [d]) ++ ds = pre ++ d :: ds by simp, show (pre ++ [d]).length = pre.length + 1 by simp] at ih'
            have hq := sizeRead (shape := pre ++ d :: ds) (i := pre.length) (by simp) b
            rw [List.drop_left' rfl, hb] at hq
            simp only [Option.map_some, orUb] at hq
            simp only [checkSizes, hq, ih', bind, Except.bind, List.map_cons, List.cons.injEq]
            congr 1
            rw [Bool.decide_and]
            congr 1
            exact decide_eq_decide.2 eq_comm

theorem checkSizes_short : ∀ (post pre : Shape G) (idx dims : List Nat) (r : Bool × List (Nat × G)), idx.length < dims.length →
    idx.length ≤ post.length → checkIndex post idx = .ok r →
    checkSizes (pack (pre ++ post)) pre.length dims idx = Res.ub := by
  intro post
  induction post with
  | nil =>
    intro pre idx dims r h1 h2 h3
    cases idx with
    | nil =>
      cases dims with
      | nil => simp at h1
      | cons s ss => rfl
    | cons b bs => simp at h2
  | cons d ds ih =>
    intro pre idx dims r h1 h2 h3
    cases dims with
    | nil => simp at h1
    | cons s ss =>
      cases idx with
      | nil => rfl
      | cons b bs =>
        simp only [checkIndex, bind, Except.bind] at h3
        cases hb : (d :: ds).flatten[b]? with
        | none => rw [hb] at h3; simp [Res.ub] at h3
        | some x =>
          rw [hb] at h3
          cases h4 : checkIndex ds bs with
          | error e => rw [h4] at h3; simp at h3
          | ok q =>
            have ih' := ih (pre ++ [d]) bs ss q (by simpa using h1) (by simpa using h2) h4
            rw [show (pre ++ [d]) ++ ds = pre ++ d :: ds by simp, show (pre ++ [d]).length = pre.length + 1 by simp] at ih'
            have hq := sizeRead (shape := pre ++ d :: ds) (i := pre.length) (by simp) b
            rw [List.drop_left' rfl, hb] at hq
            simp only [Option.map_some, orUb] at hq
            simp only [checkSizes, hq, ih', bind, Except.bind, Res.ub]

theorem checkIndex_length : ∀ {post : Shape G} {idx : List Nat} {r}, checkIndex post idx = .ok r → idx.length ≤ post.length
  | _, [], _, _ => by simp
  | [], _ :: _, _, h => by simp [checkIndex, Res.ub] at h
  | d :: ds, b :: bs, r, h => by
    simp only [checkIndex, bind, Except.bind] at h
    cases hb : (d :: ds).flatten[b]? with
    | none => rw [hb] at h; simp [Res.ub] at h
    | some x =>
      rw [hb] at h
      cases h4 : checkIndex ds bs with
      | error e => rw [h4] at h; simp at h
      | ok q => simpa using checkIndex_length h4

theorem checkOne_pack [AddCommMonoid G] [DecidableEq G] (shape : Shape G) (rule : G) (kb : List Nat × Blk R) :
    checkOne (pack shape) rule kb = checkBlock shape rule kb := by
  have hc := checkComps_pack shape [] kb.1
  simp only [List.nil_append, List.length_nil] at hc
  unfold checkOne checkBlock
  cases h1 : checkComps (pack shape) 0 kb.1 with
  | error e =>
    rw [h1] at hc
    cases h2 : checkIndex shape kb.1 with
    | error e' => rw [h2] at hc; simpa [Except.map, bind, Except.bind] using hc
    | ok r => rw [h2] at hc; simp [Except.map] at hc
  | ok c =>
    rw [h1] at hc
    cases h2 : checkIndex shape kb.1 with
    | error e' => rw [h2] at hc; simp [Except.map] at hc
    | ok r =>
      rw [h2] at hc
      simp only [Except.map, Except.ok.injEq, Prod.mk.injEq] at hc
      simp only [bind, Except.bind]
      have hr : (pack shape).rank = shape.length := rfl
      rw [hr]
      by_cases hd : kb.2.dims.length ≠ shape.length
      · rw [if_pos hd, if_pos hd]
      · rw [if_neg hd, if_neg hd]
        rw [ne_eq, Classical.not_not] at hd
        have hle := checkIndex_length h2
        by_cases hlt : kb.1.length < shape.length
        · rw [if_pos hlt]
          have := checkSizes_short shape [] kb.1 kb.2.dims r (by omega) hle h2
          simp only [List.nil_append, List.length_nil] at this
          rw [this]
          rfl
        · rw [if_neg hlt]
          have := checkSizes_pack shape [] kb.1 kb.2.dims r (by omega) hd h2
          simp only [List.nil_append, List.length_nil] at this
          rw [this]
          simp only [← hc.1, hc.2]
          rw [Bool.and_comm (decide (kb.1.length = shape.length)) c.1]

end PK
end QuantiT
