import Verif.Model.BlockDmrg
import Verif.Props.Broadcast
import Verif.Lemmas.BlockNetwork2
/-
Lemmas for the two-site update of block tensors: numbers as tensors without dimensions, stored blocks, and results that no
longer depend on the fuel.
-/
namespace QuantiT.BN
open Spec BT
variable {G R : Type}

/-! ### Numbers -/

/-- A number that is stored. -/
def sc [Zero G] (f : List Nat → R) : BT G R := ⟨[], 0, [([], ⟨[], f⟩)]⟩

/-- A number of which nothing is stored. -/
def noSc [Zero G] : BT G R := ⟨[], 0, []⟩

theorem sc_map [Zero G] {S : Type} (g : R → S) (f : List Nat → R) : mapBlocks g (sc f : BT G R) = sc fun o => g (f o) := rfl
theorem sc_scale [Zero G] [Semiring R] (c : R) (f : List Nat → R) : scale c (sc f : BT G R) = sc fun o => c * f o := rfl
theorem sc_item [Zero G] [Zero R] (f : List Nat → R) : item (sc f : BT G R) = .ok (f []) := rfl

theorem sc_conj [AddCommGroup G] (c : R → R) (f : List Nat → R) : conj c (sc f : BT G R) = sc fun o => c (f o) := by
  simp [conj, inverseCvals, mapBlocks, sc]

theorem noSc_map [Zero G] {S : Type} (g : R → S) : mapBlocks g (noSc : BT G R) = noSc := rfl
theorem noSc_scale [Zero G] [Semiring R] (c : R) : scale c (noSc : BT G R) = noSc := rfl
theorem noSc_item [Zero G] [Zero R] : item (noSc : BT G R) = .ok 0 := rfl
theorem noSc_conj [AddCommGroup G] (c : R → R) : conj c (noSc : BT G R) = noSc := by
  simp [conj, inverseCvals, mapBlocks, noSc]

theorem sc_add [Zero G] [DecidableEq G] [Semiring R] (f g : List Nat → R) (a : R) :
    add (sc f : BT G R) (sc g) a = .ok (sc fun o => f o + a * g o) := by
  simp only [add, addCheck, sc]
  rfl

theorem sc_add_noSc [Zero G] [DecidableEq G] [Semiring R] (f : List Nat → R) (a : R) :
    add (sc f : BT G R) noSc a = .ok (sc fun o => a * f o) := by
  simp only [add, addCheck, sc, noSc]
  rfl

theorem noSc_add_sc [Zero G] [DecidableEq G] [Semiring R] (g : List Nat → R) (a : R) :
    add (noSc : BT G R) (sc g) a = .ok (sc fun o => a * g o) := by
  simp only [add, addCheck, sc, noSc]
  rfl

theorem noSc_add_noSc [Zero G] [DecidableEq G] [Semiring R] (a : R) : add (noSc : BT G R) noSc a = .ok noSc := by
  simp only [add, addCheck, noSc]
  rfl

theorem sc_op [AddCommGroup G] [DecidableEq G] (op : R → R → R) (f g : List Nat → R) :
    broadcastOp op (sc f : BT G R) (sc g) = .ok (sc fun _ => op (f []) (g [])) := by
  have h : shapeCompute (sc f : BT G R) (sc g) = .ok ([], [], 0) := by
    simp [shapeCompute, sc, bind, Except.bind, pure, Except.pure]
  unfold broadcastOp
  simp only [sc, List.length_nil, le_refl, decide_true, if_true]
  rw [show (⟨[], 0, [([], ⟨[], f⟩)]⟩ : BT G R) = sc f from rfl, show (⟨[], 0, [([], ⟨[], g⟩)]⟩ : BT G R) = sc g from rfl, h]
  exact mkChecked_ok (shape := []) (rule := 0) (bl := [([], ⟨[], fun _ => op (f []) (g [])⟩)]) (by
    intro k b hb
    simp only [List.mem_singleton, Prod.mk.injEq] at hb
    obtain ⟨rfl, rfl⟩ := hb
    exact ⟨[], rfl, rfl, rfl⟩)

theorem noSc_op [AddCommGroup G] [DecidableEq G] (op : R → R → R) {a b : BT G R} (ha : a = noSc ∨ ∃ f, a = sc f) (hb : b = noSc ∨ ∃ f, b = sc f)
    (h : a = noSc ∨ b = noSc) : broadcastOp op a b = .ok noSc := by
  have h2 : (b.blocks.flatMap fun o => a.blocks.map fun t => (o, t)) = [] := by
    rcases h with rfl | rfl
    · simp [noSc]
    · simp [noSc]
  have hsa : a.shape = [] ∧ a.rule = 0 := by rcases ha with rfl | ⟨f, rfl⟩ <;> exact ⟨rfl, rfl⟩
  have hsb : b.shape = [] ∧ b.rule = 0 := by rcases hb with rfl | ⟨f, rfl⟩ <;> exact ⟨rfl, rfl⟩
  have h3 : shapeCompute a b = .ok ([], [], 0) := by
    simp [shapeCompute, hsa, hsb, bind, Except.bind, pure, Except.pure]
  unfold broadcastOp
  simp only [hsa.1, hsb.1, List.length_nil, le_refl, decide_true, if_true, h3, h2, bind, Except.bind, List.foldlM_nil, pure, Except.pure]
  exact mkChecked_ok (bl := []) (by simp)

/-- A tensor without dimensions and with the neutral rule is a number. -/
theorem number_cases [AddCommGroup G] {t : BT G R} (h : Conserving t.shape t.rule t.blocks) (hs : t.shape = []) (hr : t.rule = 0) :
    (t.blocks = [] ∧ t = noSc) ∨ ∃ f, t = sc f := by
  obtain ⟨s, q, bl⟩ := t
  simp only at hs hr
  subst hs hr
  have key : ∀ x ∈ bl, x.1 = [] ∧ x.2.dims = [] := by
    rintro ⟨k, b⟩ hx
    obtain ⟨secs, h1, _, h3⟩ := h.block k b hx
    have := (sections_length h1).1
    have h4 := (sections_length h1).2
    simp only [List.length_nil] at this h4
    have h5 : secs = [] := List.length_eq_zero_iff.1 (by omega)
    exact ⟨List.length_eq_zero_iff.1 this, by rw [h3, h5]; rfl⟩
  match bl, h, key with
  | [], _, _ => exact .inl ⟨rfl, rfl⟩
  | [(k, ⟨d, f⟩)], _, key =>
    have := key _ (List.mem_singleton.2 rfl)
    simp only at this
    obtain ⟨rfl, rfl⟩ := this
    exact .inr ⟨f, rfl⟩
  | x :: y :: l, h, key =>
    have h1 := (key x (by simp)).1
    have h2 := (key y (by simp)).1
    have h3 := h.sorted
    simp only [Sorted, List.pairwise_cons] at h3
    have := h3.1 y (by simp)
    rw [h1, h2] at this
    exact absurd this (lt_irrefl _)

/-! ### Stored blocks -/

/-- A block is stored at `k`. -/
def HasKey (t : BT G R) (k : List Nat) : Prop := ∃ v, (k, v) ∈ t.blocks

theorem hasKey_iff {t : BT G R} (h : Sorted t.blocks) (k : List Nat) : HasKey t k ↔ (lookup t.blocks k).isSome := by
  constructor
  · rintro ⟨v, hv⟩
    rw [lookup_of_mem h hv]
    rfl
  · intro h
    obtain ⟨v, hv⟩ := Option.isSome_iff_exists.1 h
    exact ⟨v, mem_of_lookup hv⟩

theorem hasKey_conj [AddCommGroup G] (c : R → R) (t : BT G R) (k : List Nat) : HasKey (conj c t) k ↔ HasKey t k := by
  unfold HasKey conj inverseCvals mapBlocks
  simp only [List.mem_map]
  constructor
  · rintro ⟨v, x, hx, he⟩
    exact ⟨x.2, by rw [← (Prod.mk.inj he).1]; exact hx⟩
  · rintro ⟨v, hv⟩
    exact ⟨_, (k, v), hv, rfl⟩

theorem HasKey.ne_nil {t : BT G R} {k : List Nat} (h : HasKey t k) : t.blocks ≠ [] := by
  obtain ⟨v, hv⟩ := h
  exact List.ne_nil_of_mem hv

/-! ### A tensor and a number -/

theorem fold_sorted {α : Type} {step : FM (List Nat) (Blk R) → α → Res (FM (List Nat) (Blk R))} {κ : α → List Nat} {v : α → Blk R}
    (ps : List α) (hs : Sorted (ps.map fun p => (κ p, v p)))
    (hstep : ∀ p ∈ ps, ∀ acc, Sorted acc → step acc p = .ok (FM.insert acc (κ p) (v p)).1) :
    ps.foldlM step [] = .ok (ps.map fun p => (κ p, v p)) := by
  obtain ⟨bl, h1, h2, h3⟩ := fold_pairs (m := fun _ => true) (κ := κ) (v := v) ps [] [] sorted_nil
    (by simpa using hstep) (by
      intro p hp q hq _ _ hk
      have e1 := lookup_of_mem hs (List.mem_map.2 ⟨p, by simpa using hp, rfl⟩)
      have e2 := lookup_of_mem hs (List.mem_map.2 ⟨q, by simpa using hq, rfl⟩)
      simp only at e1 e2
      rw [hk, e2] at e1
      exact (Option.some.inj e1).symm) (by simp [lookup_nil])
  rw [h1]
  congr 1
  refine sorted_ext h2 hs fun k => Option.ext fun b => ?_
  rw [h3 k b]
  constructor
  · rintro ⟨p, hp, _, rfl, rfl⟩
    exact lookup_of_mem hs (List.mem_map.2 ⟨p, by simpa using hp, rfl⟩)
  · intro hb
    obtain ⟨p, hp, he⟩ := List.mem_map.1 (mem_of_lookup hb)
    exact ⟨p, by simpa using hp, rfl, (Prod.mk.inj he).1.symm, (Prod.mk.inj he).2.symm⟩

theorem bcDims_nil (x : List Nat) : bcDims x [] = some x := by
  have := bcDims_eq (a := x) (xs := []) (ys := []) .nil
  simpa using this

theorem nil_bcDims (x : List Nat) : bcDims [] x = some x := by rw [bcDims_comm, bcDims_nil]

/-- What an operation with a number does to the blocks. -/
def numBlocks (φ : R → R) (bl : FM (List Nat) (Blk R)) : FM (List Nat) (Blk R) :=
  bl.map fun x => (x.1, ⟨x.2.dims, fun o => φ (x.2.f (clip x.2.dims o))⟩)

theorem numBlocks_sorted (φ : R → R) {bl : FM (List Nat) (Blk R)} (h : Sorted bl) : Sorted (numBlocks φ bl) :=
  FM.sorted_map_snd (g := fun b : Blk R => (⟨b.dims, fun o => φ (b.f (clip b.dims o))⟩ : Blk R)) h

theorem numBlocks_conserving [AddCommMonoid G] (φ : R → R) {sh : Shape G} {q : G} {bl : FM (List Nat) (Blk R)} (h : Conserving sh q bl) :
    Conserving sh q (numBlocks φ bl) := by
  refine ⟨numBlocks_sorted φ h.sorted, ?_⟩
  intro k b hb
  obtain ⟨⟨k0, b0⟩, hm, he⟩ := List.mem_map.mp hb
  cases he
  exact h.block k0 b0 hm

theorem hasKey_num (φ : R → R) (t : BT G R) (k : List Nat) :
    HasKey ⟨t.shape, t.rule, numBlocks φ t.blocks⟩ k ↔ HasKey t k := by
  unfold HasKey numBlocks
  simp only [List.mem_map]
  constructor
  · rintro ⟨v, x, hx, he⟩
    exact ⟨x.2, by rw [← (Prod.mk.inj he).1]; exact hx⟩
  · rintro ⟨v, hv⟩
    exact ⟨_, (k, v), hv, rfl⟩

theorem clip_inRange {dims o : List Nat} (h : InRange o dims) : clip dims o = o := by
  rw [clip_eq (inRange_length h).symm, clips_inRange h]

theorem entry_num [AddCommMonoid G] [Zero R] {φ : R → R} (h0 : φ 0 = 0) {sh : Shape G} {q : G} {bl : FM (List Nat) (Blk R)}
    (h : Conserving sh q bl) (e : List Nat) : entry sh (numBlocks φ bl) e = φ (entry sh bl e) := by
  have hl : ∀ k, lookup (numBlocks φ bl) k = (lookup bl k).map fun b => ⟨b.dims, fun o => φ (b.f (clip b.dims o))⟩ := by
    intro k
    exact FM.lookup_map_snd (fun b : Blk R => (⟨b.dims, fun o => φ (b.f (clip b.dims o))⟩ : Blk R)) bl k
  simp only [entry, hl]
  rcases hp : locateAll sh e with _ | ⟨k, o⟩
  · simp [h0]
  · rcases hk : lookup bl k with _ | b
    · simp [hk, h0]
    · obtain ⟨secs, s1, _, s3⟩ := h.block k b (mem_of_lookup hk)
      have hr : InRange o b.dims := by
        rw [s3]
        exact locateAll_offset hp s1
      simp [hk, clip_inRange hr]

theorem shapeCompute_sc [AddCommGroup G] (t : BT G R) (g : List Nat → R) : shapeCompute t (sc g) = .ok ([], t.shape, t.rule) := by
  simp [shapeCompute, sc, bind, Except.bind, pure, Except.pure]

theorem outIndex_nil (k : List Nat) : outIndex k [] = .ok k := by simp [outIndex]

theorem op_sc [AddCommGroup G] [DecidableEq G] (op : R → R → R) {t : BT G R} (h : Conserving t.shape t.rule t.blocks) (g : List Nat → R) :
    broadcastOp op t (sc g) = .ok ⟨t.shape, t.rule, numBlocks (fun x => op x (g [])) t.blocks⟩ := by
  unfold broadcastOp
  have hle : (sc g : BT G R).shape.length ≤ t.shape.length := Nat.zero_le _
  simp only [hle, decide_true, if_true, shapeCompute_sc, bind, Except.bind]
  have hps : ((sc g : BT G R).blocks.flatMap fun o => t.blocks.map fun t => (o, t)) = t.blocks.map fun x => (([], ⟨[], g⟩), x) := by
    simp [sc]
  rw [hps, List.foldlM_map]
  rw [fold_sorted (κ := fun x => x.1) (v := fun x => ⟨x.2.dims, fun o => op (x.2.f (clip x.2.dims o)) (g [])⟩)]
  · exact mkChecked_ok (numBlocks_conserving (fun x => op x (g [])) h).block
  · exact numBlocks_sorted (fun x => op x (g [])) h.sorted
  · rintro ⟨k, b⟩ _ acc hacc
    obtain ⟨r, r1, r2⟩ := emplaceEnd hacc k (⟨b.dims, fun o => op (b.f (clip b.dims o)) (g [])⟩ : Blk R)
    unfold broadcastStep
    simp only [if_true, matchIndex, List.zip_nil_left, List.all_nil, outIndex_nil, bind, Except.bind, torchOp, bcDims_nil]
    rw [show (fun o => op (b.f (clip b.dims o)) (g (clip [] o))) = fun o => op (b.f (clip b.dims o)) (g []) by
      funext o; simp [clip], r1]
    exact congrArg Except.ok r2

theorem sc_op_left [AddCommGroup G] [DecidableEq G] (op : R → R → R) {t : BT G R} (h : Conserving t.shape t.rule t.blocks)
    (hne : t.shape ≠ []) (g : List Nat → R) :
    broadcastOp op (sc g) t = .ok ⟨t.shape, t.rule, numBlocks (fun x => op (g []) x) t.blocks⟩ := by
  unfold broadcastOp
  have hle : ¬ t.shape.length ≤ (sc g : BT G R).shape.length := by
    have := List.length_pos_iff.2 hne
    simp [sc]; exact hne
  simp only [hle, decide_false, Bool.false_eq_true, if_false, shapeCompute_sc, bind, Except.bind]
  have hps : (t.blocks.flatMap fun o => (sc g : BT G R).blocks.map fun t => (o, t)) = t.blocks.map fun x => (x, ([], ⟨[], g⟩)) := by
    show (t.blocks.flatMap fun o => [(o, ([], (⟨[], g⟩ : Blk R)))]) = _
    exact (List.map_eq_flatMap ..).symm
  rw [hps, List.foldlM_map]
  rw [fold_sorted (κ := fun x => x.1) (v := fun x => ⟨x.2.dims, fun o => op (g []) (x.2.f (clip x.2.dims o))⟩)]
  · exact mkChecked_ok (numBlocks_conserving (fun x => op (g []) x) h).block
  · exact numBlocks_sorted (fun x => op (g []) x) h.sorted
  · rintro ⟨k, b⟩ _ acc hacc
    obtain ⟨r, r1, r2⟩ := emplaceEnd hacc k (⟨b.dims, fun o => op (g []) (b.f (clip b.dims o))⟩ : Blk R)
    unfold broadcastStep
    simp only [Bool.false_eq_true, if_false, matchIndex, List.zip_nil_left, List.all_nil, if_true, outIndex_nil, bind, Except.bind, torchOp, nil_bcDims]
    rw [show (fun o => op (g (clip [] o)) (b.f (clip b.dims o))) = fun o => op (g []) (b.f (clip b.dims o)) by
      funext o; simp [clip], r1]
    exact congrArg Except.ok r2

theorem inPlace_sc [AddCommGroup G] (op : R → R → R) {t : BT G R} (h : Sorted t.blocks) (g : List Nat → R) :
    broadcastInPlace op t (sc g) = .ok ⟨t.shape, t.rule, numBlocks (fun x => op x (g [])) t.blocks⟩ := by
  unfold broadcastInPlace
  have hle : (sc g : BT G R).shape.length ≤ t.shape.length := Nat.zero_le _
  simp only [hle, decide_true, if_true, shapeCompute_sc, bind, Except.bind]
  have hps : ((sc g : BT G R).blocks.flatMap fun o => t.blocks.map fun t => (o, t)) = t.blocks.map fun x => (([], ⟨[], g⟩), x) := by
    simp [sc]
  rw [hps, List.foldlM_map]
  rw [fold_sorted (κ := fun x => x.1) (v := fun x => ⟨x.2.dims, fun o => op (x.2.f (clip x.2.dims o)) (g [])⟩)]
  · rfl
  · exact numBlocks_sorted (fun x => op x (g [])) h
  · rintro ⟨k, b⟩ _ acc hacc
    obtain ⟨r, r1, r2⟩ := emplaceEnd hacc k (⟨b.dims, fun o => op (b.f (clip b.dims o)) (g [])⟩ : Blk R)
    unfold broadcastStepInPlace
    simp only [if_true, matchIndex, List.zip_nil_left, List.all_nil, outIndex_nil, bind, Except.bind, torchOpInPlace, torchOp, bcDims_nil,
      canInPlace]
    rw [show (fun o => op (b.f (clip b.dims o)) (g (clip [] o))) = fun o => op (b.f (clip b.dims o)) (g []) by
      funext o; simp [clip], r1]
    exact congrArg Except.ok r2

/-- An operation with a number that leaves zero as it is acts on every entry. -/
theorem rep_num [AddCommMonoid G] [Zero R] {φ : R → R} (h0 : φ 0 = 0) {t : BT G R} {x : Blk R} (h : Rep t x) :
    Rep ⟨t.shape, t.rule, numBlocks φ t.blocks⟩ ⟨x.dims, fun o => φ (x.f o)⟩ := by
  refine ⟨⟨numBlocks_conserving φ h.1.1, h.1.2⟩, h.2.1, fun o ho => ?_⟩
  simp only [denseOf]
  rw [entry_num h0 h.1.1, h.f ho]

end QuantiT.BN
