import Verif.Spec.BlockTruncate
import Verif.Lemmas.BlockTruncate
import Verif.Props.Truncate
import Mathlib.Data.List.GetD
/-
C40: truncation of the singular value decomposition of a block tensor.
-/
namespace QuantiT
namespace BT
open Spec
variable {G R α : Type}

theorem lowerBound_eq [LinearOrder α] (b : Blk α) (thr : α)
    (h : ∀ i j, i ≤ j → j < b.dims.getD 0 0 → b.f [j] ≤ b.f [i]) :
    (blkList b).takeWhile (fun x => decide (thr < x)) = (blkList b).filter (fun x => decide (thr < x)) ∧
    lowerBound b thr = ((List.range (b.dims.getD 0 0)).filter fun i => decide (thr < b.f [i])).length := by
  have hp : (blkList b).Pairwise (· ≥ ·) := by
    unfold blkList
    rw [List.pairwise_map]
    have : (List.range (b.dims.getD 0 0)).Pairwise fun i j => i < j ∧ j < b.dims.getD 0 0 := by
      rw [List.pairwise_iff_getElem]
      intro i j hi hj hij
      simp at hi hj ⊢
      omega
    exact this.imp fun {i j} h' => h i j h'.1.le h'.2
  have h1 := takeWhile_filter thr (blkList b) hp
  refine ⟨h1, ?_⟩
  unfold lowerBound
  rw [h1]
  unfold blkList
  rw [List.filter_map, List.length_map]
  rfl

/-- A block cut down to the values kept. -/
def cutBlk [LinearOrder α] (blocks : List (List Nat × Blk α)) (thr : α) (kb : List Nat × Blk R) : List Nat × Blk R :=
  match kb.1.getLast?.bind (above blocks thr) with
  | some (n + 1) => (kb.1, colsTo kb.2 (n + 1))
  | _ => kb

theorem cutBlk_fst [LinearOrder α] (blocks : List (List Nat × Blk α)) (thr : α) (kb : List Nat × Blk R) :
    (cutBlk blocks thr kb).1 = kb.1 := by
  unfold cutBlk
  split <;> rfl

theorem above_cons [LinearOrder α] (j : Nat) (b : Blk α) (P : List (List Nat × Blk α)) (thr : α) (i : Nat) :
    above (([j], b) :: P) thr i = if i = j then
      some ((List.range (b.dims.getD 0 0)).filter fun i => decide (thr < b.f [i])).length else above P thr i := by
  unfold above
  rw [lookup_cons]
  by_cases h : i = j
  · subst h; simp
  · rw [if_neg h, if_neg (by simpa using fun e => h e.symm)]

/-- What is known of one of the tensors `u` after the blocks `P` of `d` have been handled (`B` are all blocks of `d`). -/
structure UInv [LinearOrder α] (B P : List (List Nat × Blk α)) (thr : α) (nd : Nat) (u c : BT G R) : Prop where
  shape : ∃ lead r, u.shape = lead ++ [r] ∧ r.length = nd ∧ c.shape = lead ++ [resized (above P thr) r]
  rule : c.rule = u.rule
  stay : ∀ kb ∈ u.blocks, emptiedIn P thr kb.1 = false → cutBlk P thr kb ∈ c.blocks
  iso : Isolated (fun kb => emptiedIn B thr kb.1) u.blocks →
    c.blocks = (u.blocks.filter fun kb => !emptiedIn P thr kb.1).map (cutBlk P thr)
  sub : c.blocks.Subperm (u.blocks.map (cutBlk P thr))
  last : (∀ kb, u.blocks.getLast? = some kb → emptiedIn B thr kb.1 = false) →
    c.blocks.Sublist (u.blocks.map (cutBlk P thr)) ∧ c.blocks.getLast? = (u.blocks.map (cutBlk P thr)).getLast?

theorem resized_length (keep : Nat → Option Nat) (r : Dim G) : (resized keep r).length = r.length := by simp [resized]

theorem resized_set [LinearOrder α] (P : List (List Nat × Blk α)) (thr : α) (j n : Nat) (b : Blk α) (r : Dim G) (x : Nat × G)
    (hn : ((List.range (b.dims.getD 0 0)).filter fun i => decide (thr < b.f [i])).length = n + 1)
    (hx : (resized (above P thr) r)[j]? = some x) :
    (resized (above P thr) r).set j (n + 1, x.2) = resized (above (([j], b) :: P) thr) r := by
  apply List.ext_getElem?
  intro i
  rw [List.getElem?_set, resized_length]
  simp only [resized, List.getElem?_mapIdx] at hx ⊢
  rw [above_cons, hn]
  by_cases h : i = j
  · subst h
    rw [Option.map_eq_some_iff] at hx
    obtain ⟨y, h1, h2⟩ := hx
    have := (List.getElem?_eq_some_iff.1 h1).1
    simp only [if_true, h1, Option.map_some, this]
    rw [← h2]
    rfl
  · rw [if_neg h, if_neg fun e => h e.symm]

theorem resized_same [LinearOrder α] (P : List (List Nat × Blk α)) (thr : α) (j : Nat) (b : Blk α) (r : Dim G)
    (hj : above P thr j = none)
    (hn : ((List.range (b.dims.getD 0 0)).filter fun i => decide (thr < b.f [i])).length = 0) :
    resized (above (([j], b) :: P) thr) r = resized (above P thr) r := by
  unfold resized
  congr 1
  funext i s
  rw [above_cons, hn]
  by_cases h : i = j
  · subst h; rw [if_pos rfl, hj]; rfl
  · rw [if_neg h]

theorem bind_above_cons [LinearOrder α] (P : List (List Nat × Blk α)) (thr : α) (j : Nat) (b : Blk α) (k : List Nat) :
    k.getLast?.bind (above (([j], b) :: P) thr) = if endsWith j k then
      some ((List.range (b.dims.getD 0 0)).filter fun i => decide (thr < b.f [i])).length else k.getLast?.bind (above P thr) := by
  unfold endsWith
  cases h : k.getLast? with
  | none => simp
  | some i =>
    simp only [Option.bind_some, above_cons, Option.some.injEq, decide_eq_true_eq]

theorem bind_above_none [LinearOrder α] {P : List (List Nat × Blk α)} {thr : α} {j : Nat} (hj : above P thr j = none) {k : List Nat}
    (h : endsWith j k = true) : k.getLast?.bind (above P thr) = none := by
  unfold endsWith at h
  rw [decide_eq_true_eq] at h
  rw [h]
  exact hj

theorem uinv_remove [LinearOrder α] {B P Q : List (List Nat × Blk α)} {thr : α} {nd j : Nat} {b : Blk α} {u c : BT G R}
    (hB : B = Q ++ ([j], b) :: P) (hnd : ∀ i, above P thr i ≠ none → above B thr i = above P thr i)
    (hBj : above B thr j = some ((List.range (b.dims.getD 0 0)).filter fun i => decide (thr < b.f [i])).length)
    (hj : above P thr j = none)
    (hn : ((List.range (b.dims.getD 0 0)).filter fun i => decide (thr < b.f [i])).length = 0) (h : UInv B P thr nd u c) :
    UInv B (([j], b) :: P) thr nd u ⟨c.shape, c.rule, removeBlocks (fun kb => endsWith j kb.1) c.blocks⟩ := by
  have hcut : ∀ kb : List Nat × Blk R, endsWith j kb.1 = false → cutBlk (([j], b) :: P) thr kb = cutBlk P thr kb := by
    intro kb h'
    unfold cutBlk
    rw [bind_above_cons, h']
    rfl
  have hem : ∀ k : List Nat, emptiedIn (([j], b) :: P) thr k = (endsWith j k || emptiedIn P thr k) := by
    intro k
    unfold emptiedIn
    rw [bind_above_cons, hn]
    by_cases h' : endsWith j k <;> simp [h']
  have hall : ∀ kb : List Nat × Blk R, cutBlk (([j], b) :: P) thr kb = cutBlk P thr kb := by
    intro kb
    by_cases h' : endsWith j kb.1
    · unfold cutBlk
      rw [bind_above_cons, if_pos h', hn, bind_above_none hj h']
    · exact hcut kb (by simpa using h')
  refine ⟨?_, h.rule, ?_, ?_, ?_, ?_⟩
  · obtain ⟨lead, r, h1, h2, h3⟩ := h.shape
    exact ⟨lead, r, h1, h2, by rw [resized_same P thr j b r hj hn]; exact h3⟩
  · intro kb hkb he
    rw [hem] at he
    obtain ⟨e1, e2⟩ := Bool.or_eq_false_iff.1 he
    rw [hcut kb e1, removeBlocks_eq]
    have hm := h.stay kb hkb e2
    have : cutBlk P thr kb ∈ c.blocks.filter (fun kb => !endsWith j kb.1) := by
      rw [List.mem_filter, cutBlk_fst, e1]
      exact ⟨hm, rfl⟩
    rw [← filter_removed _ _ [] c.blocks le_rfl (by simp)] at this
    exact (List.mem_filter.1 this).1
  · intro hi
    have hc := h.iso hi
    have hiso : Isolated (fun kb : List Nat × Blk R => endsWith j kb.1) c.blocks := by
      rw [hc]
      refine isolated_map _ (fun kb => endsWith j kb.1) _ (fun x => by rw [cutBlk_fst]) _ ?_
      refine isolated_filter _ _ _ ?_ ?_ _ hi
      · intro x hx
        have hx' : emptiedIn P thr x.1 = true := by simpa using hx
        unfold emptiedIn at hx' ⊢
        rw [decide_eq_true_eq] at hx' ⊢
        cases hl : x.1.getLast? with
        | none => rw [hl] at hx'; simp at hx'
        | some i =>
          rw [hl] at hx'
          simp only [Option.bind_some] at hx' ⊢
          rw [hnd i (by rw [hx']; simp)]
          exact hx'
      · intro x hx
        unfold endsWith at hx
        rw [decide_eq_true_eq] at hx
        unfold emptiedIn
        rw [hx]
        simp only [Option.bind_some, decide_eq_true_eq]
        rw [hBj, hn]
    show removeBlocks _ c.blocks = _
    rw [removeBlocks_eq, removed_isolated _ _ [] _ le_rfl hiso, hc, List.filter_map, List.filter_filter]
    have : (u.blocks.filter fun a => ((fun x => !endsWith j x.1) ∘ cutBlk P thr) a && !emptiedIn P thr a.1) =
        u.blocks.filter fun kb => !emptiedIn (([j], b) :: P) thr kb.1 := by
      congr 1
      funext x
      simp only [Function.comp, cutBlk_fst, hem, Bool.not_or]
    rw [this]
    apply List.map_congr_left
    intro x hx
    rw [List.mem_filter, hem] at hx
    have := hx.2
    rw [Bool.not_or, Bool.and_eq_true] at this
    exact (hcut x (by simpa using this.1)).symm
  · rw [funext hall]
    show (removeBlocks _ c.blocks).Subperm _
    rw [removeBlocks_eq]
    exact (removed_subperm _ _ [] c.blocks).trans h.sub
  · intro hl
    obtain ⟨h1, h2⟩ := h.last hl
    rw [funext hall]
    show (removeBlocks _ c.blocks).Sublist _ ∧ (removeBlocks _ c.blocks).getLast? = _
    rw [removeBlocks_eq]
    obtain ⟨h3, h4⟩ := removed_sublist (fun kb : List Nat × Blk R => endsWith j kb.1) _ [] c.blocks le_rfl (by
      intro x hx
      rw [h2, List.getLast?_map, Option.map_eq_some_iff] at hx
      obtain ⟨y, hy, rfl⟩ := hx
      have := hl y hy
      rw [cutBlk_fst]
      by_contra hc
      have hc : endsWith j y.1 = true := by simpa using hc
      unfold endsWith at hc
      rw [decide_eq_true_eq] at hc
      unfold emptiedIn at this
      have := of_decide_eq_false this
      rw [hc] at this
      exact this (by rw [Option.bind_some, hBj, hn]))
    exact ⟨h3.trans h1, h4.trans h2⟩

theorem uinv_trunc [LinearOrder α] {B P : List (List Nat × Blk α)} {thr : α} {nd j n : Nat} {b : Blk α} {u c : BT G R}
    (hlt : j < nd) (hj : above P thr j = none)
    (hn : ((List.range (b.dims.getD 0 0)).filter fun i => decide (thr < b.f [i])).length = n + 1) (h : UInv B P thr nd u c) :
    ∃ c', truncBlocks nd j (n + 1) c = .ok c' ∧ UInv B (([j], b) :: P) thr nd u c' := by
  obtain ⟨lead, r, h1, h2, h3⟩ := h.shape
  have hxl : j < (resized (above P thr) r).length := by rw [resized_length, h2]; exact hlt
  have hx : (resized (above P thr) r)[j]? = some (resized (above P thr) r)[j] := List.getElem?_eq_getElem hxl
  generalize (resized (above P thr) r)[j] = x at hx
  have hcut : ∀ kb : List Nat × Blk R, cutBlk (([j], b) :: P) thr kb =
      (if endsWith j (cutBlk P thr kb).1 then ((cutBlk P thr kb).1, colsTo (cutBlk P thr kb).2 (n + 1)) else cutBlk P thr kb) := by
    intro kb
    rw [cutBlk_fst]
    by_cases h' : endsWith j kb.1
    · have e := bind_above_none hj h'
      have e2 : cutBlk P thr kb = kb := by unfold cutBlk; rw [e]
      rw [if_pos h', e2]
      unfold cutBlk
      rw [bind_above_cons, if_pos h', hn]
    · rw [if_neg h']
      unfold cutBlk
      rw [bind_above_cons, if_neg h']
  have hem : ∀ k : List Nat, emptiedIn (([j], b) :: P) thr k = emptiedIn P thr k := by
    intro k
    unfold emptiedIn
    rw [bind_above_cons, hn]
    by_cases h' : endsWith j k
    · rw [if_pos h', bind_above_none hj h']; rfl
    · rw [if_neg h']
  refine ⟨⟨lead ++ [(resized (above P thr) r).set j (n + 1, x.2)], c.rule,
    c.blocks.map fun kb => if endsWith j kb.1 then (kb.1, colsTo kb.2 (n + 1)) else kb⟩, ?_, ?_, h.rule, ?_, ?_, ?_, ?_⟩
  · unfold truncBlocks
    have hl : c.shape.flatten.length = lead.flatten.length + nd := by rw [h3]; simp [resized_length, h2]
    rw [hl]
    dsimp only
    rw [if_neg (by omega), show lead.flatten.length + nd - (nd - j) = lead.flatten.length + j by omega, h3,
      setPacked_append _ _ _ _ _ hx]
  · exact ⟨lead, r, h1, h2, by rw [resized_set P thr j n b r x hn hx]⟩
  · intro kb hkb he
    rw [hem] at he
    rw [hcut]
    exact List.mem_map.2 ⟨_, h.stay kb hkb he, rfl⟩
  · intro hi
    show List.map _ c.blocks = _
    rw [h.iso hi, List.map_map]
    have : (u.blocks.filter fun kb => !emptiedIn P thr kb.1) = u.blocks.filter fun kb => !emptiedIn (([j], b) :: P) thr kb.1 := by
      congr 1; funext x; rw [hem]
    rw [this]
    apply List.map_congr_left
    intro x _
    rw [hcut]
    rfl
  · obtain ⟨l, l1, l2⟩ := h.sub
    have := l2.map fun kb : List Nat × Blk R => if endsWith j kb.1 then (kb.1, colsTo kb.2 (n + 1)) else kb
    rw [List.map_map] at this
    rw [funext hcut]
    exact ⟨_, l1.map _, this⟩
  · intro hl
    obtain ⟨h4, h5⟩ := h.last hl
    have := h4.map fun kb : List Nat × Blk R => if endsWith j kb.1 then (kb.1, colsTo kb.2 (n + 1)) else kb
    rw [List.map_map] at this
    rw [funext hcut]
    refine ⟨this, ?_⟩
    show (List.map _ c.blocks).getLast? = _
    rw [List.getLast?_map, h5, List.getLast?_map, List.getLast?_map, Option.map_map]
    rfl

/-- The blocks of `d` that are kept. -/
def keptBlocks [LinearOrder α] (thr : α) (P : List (List Nat × Blk α)) : List (List Nat × Blk α) :=
  P.filterMap fun kb => if lowerBound kb.2 thr = 0 then none else some (kb.1, indexSlices kb.2 [(0, lowerBound kb.2 thr)])

theorem truncLoop_eq [LinearOrder α] (thr : α) (sec : Dim G) (B : List (List Nat × Blk α)) (hdesc : Descending B) (us : List (BT G R)) :
    ∀ (P Q : List (List Nat × Blk α)), B = Q ++ P → (∀ kb ∈ P, ∃ j < sec.length, kb.1 = [j]) → Sorted B →
    (∀ u ∈ us, ∃ lead r, u.shape = lead ++ [r] ∧ r.length = sec.length) →
    ∃ us', P.reverse.foldlM (truncStep thr sec.length) ([sec], [], us) = .ok ([resized (above P thr) sec], keptBlocks thr P, us') ∧
      List.Forall₂ (UInv B P thr sec.length) us us' := by
  intro P
  induction P with
  | nil =>
    intro Q hB hk hnd hu
    have hid : ∀ r : Dim G, resized (above ([] : List (List Nat × Blk α)) thr) r = r := by
      intro r
      have : ∀ i, above ([] : List (List Nat × Blk α)) thr i = none := fun i => by simp [above, lookup_nil]
      apply List.ext_getElem?
      intro i
      simp only [resized, List.getElem?_mapIdx, this]
      cases r[i]? <;> rfl
    refine ⟨us, by simp [keptBlocks, hid]; rfl, ?_⟩
    rw [List.forall₂_same]
    intro u hu'
    obtain ⟨lead, r, h1, h2⟩ := hu u hu'
    have hcut : ∀ kb : List Nat × Blk R, cutBlk ([] : List (List Nat × Blk α)) thr kb = kb := by
      intro kb
      have : kb.1.getLast?.bind (above ([] : List (List Nat × Blk α)) thr) = none := by
        cases kb.1.getLast? <;> simp [above, lookup_nil]
      unfold cutBlk
      rw [this]
    have hem : ∀ k : List Nat, emptiedIn ([] : List (List Nat × Blk α)) thr k = false := by
      intro k
      unfold emptiedIn
      cases k.getLast? <;> simp [above, lookup_nil]
    refine ⟨⟨lead, r, h1, h2, by rw [hid]; exact h1⟩, rfl, ?_, ?_, ?_, ?_⟩
    · intro kb hkb _
      rw [hcut]; exact hkb
    · intro _
      simp [hem, funext hcut]
    · rw [funext hcut, List.map_id']
    · intro _
      simp [funext hcut]
  | cons a P ih =>
    intro Q hB hk hnd hu
    obtain ⟨us1, e1, e2⟩ := ih (Q ++ [a]) (by rw [hB]; simp) (fun kb h => hk kb (List.mem_cons_of_mem _ h)) hnd hu
    obtain ⟨j, hjl, hj⟩ := hk a List.mem_cons_self
    obtain ⟨k, b⟩ := a
    simp only at hj
    subst hj
    have hd := (lowerBound_eq b thr (fun i i' h1 h2 => hdesc ([j], b) (by rw [hB]; simp) i i' h1 h2)).2
    have hnd' : Sorted (([j], b) :: P) := by
      unfold Sorted at hnd ⊢
      rw [hB, List.pairwise_append] at hnd
      exact hnd.2.1
    have hjn : above P thr j = none := by
      unfold above
      rw [Option.map_eq_none_iff, lookup_eq_none]
      intro e he h
      have := (List.pairwise_cons.1 hnd').1 e he
      simp only [h, lt_irrefl] at this
    rw [List.reverse_cons, List.foldlM_append, e1]
    simp only [bind, Except.bind, List.foldlM_cons, List.foldlM_nil, truncStep, pure, Except.pure]
    simp only [show [j].getLastD 0 = j from rfl]
    by_cases hn : lowerBound b thr = 0
    · rw [if_pos hn]
      have hn' := hd.symm.trans hn
      refine ⟨us1.map fun u => ⟨u.shape, u.rule, removeBlocks (fun kb => endsWith j kb.1) u.blocks⟩, ?_, ?_⟩
      · rw [resized_same P thr j b sec hjn hn']
        simp only [keptBlocks, List.filterMap_cons, hn, if_true]
      · rw [List.forall₂_map_right_iff]
        refine e2.imp fun u c h => uinv_remove (Q := Q) hB ?_ ?_ hjn hn' h
        · intro i hi
          unfold above at hi ⊢
          congr 1
          rw [ne_eq, Option.map_eq_none_iff] at hi
          obtain ⟨v, hv⟩ := Option.ne_none_iff_exists'.1 hi
          rw [hv]
          refine lookup_of_mem (e := ([i], v)) hnd ?_
          rw [hB]
          exact List.mem_append_right _ (List.mem_cons_of_mem _ (mem_of_lookup hv))
        · unfold above
          rw [lookup_of_mem (e := ([j], b)) hnd (by rw [hB]; simp)]
          rfl
    · rw [if_neg hn]
      obtain ⟨n, hn'⟩ := Nat.exists_eq_succ_of_ne_zero hn
      rw [Nat.succ_eq_add_one] at hn'
      rw [hn'] at hd ⊢
      have hxl : j < (resized (above P thr) sec).length := by rw [resized_length]; exact hjl
      have hx : (resized (above P thr) sec)[j]? = some (resized (above P thr) sec)[j] := List.getElem?_eq_getElem hxl
      generalize (resized (above P thr) sec)[j] = x at hx
      have hsp := setPacked_append [] (resized (above P thr) sec) j (n + 1) x hx
      simp only [List.nil_append, List.flatten_nil, List.length_nil, Nat.zero_add] at hsp
      rw [hsp]
      have hus : ∃ us', us1.mapM (truncBlocks sec.length j (n + 1)) = .ok us' ∧
          List.Forall₂ (UInv B (([j], b) :: P) thr sec.length) us us' := by
        clear e1 hu ih
        induction e2 with
        | nil => exact ⟨[], rfl, .nil⟩
        | cons h hs ih' =>
          obtain ⟨us', i1, i2⟩ := ih'
          obtain ⟨c', c1, c2⟩ := uinv_trunc hjl hjn hd.symm h
          refine ⟨c' :: us', ?_, .cons c2 i2⟩
          rw [List.mapM_cons, c1, i1]
          rfl
      obtain ⟨us', u1, u2⟩ := hus
      refine ⟨us', ?_, u2⟩
      simp only [u1]
      rw [resized_set P thr j n b sec x hd.symm hx]
      simp only [keptBlocks, List.filterMap_cons, hn', Nat.add_eq_zero_iff, one_ne_zero, and_false, if_false]

/-! ### The values kept -/

theorem vectorValues_kept [LinearOrder α] (thr : α) : ∀ P : List (List Nat × Blk α), Descending P →
    (∀ kb ∈ P, ∃ n, kb.2.dims = [n]) → vectorValues (keptBlocks thr P) = (vectorValues P).filter fun x => decide (thr < x) := by
  intro P
  induction P with
  | nil => intro _ _; rfl
  | cons a P ih =>
    intro hd hn
    obtain ⟨h1, h2⟩ := lowerBound_eq a.2 thr (hd a List.mem_cons_self)
    have ih' := ih (fun kb h => hd kb (List.mem_cons_of_mem _ h)) (fun kb h => hn kb (List.mem_cons_of_mem _ h))
    have hv : vectorValues (a :: P) = blkList a.2 ++ vectorValues P := rfl
    rw [hv, List.filter_append, ← ih', ← h1]
    by_cases h0 : lowerBound a.2 thr = 0
    · simp only [keptBlocks, List.filterMap_cons, h0, if_true]
      have : (blkList a.2).takeWhile (fun x => decide (thr < x)) = [] := List.length_eq_zero_iff.1 h0
      rw [this]
      rfl
    · simp only [keptBlocks, List.filterMap_cons, h0, if_false]
      have hc : ∀ (x : List Nat × Blk α) l, vectorValues (x :: l) = blkList x.2 ++ vectorValues l := fun _ _ => rfl
      rw [hc]
      congr 1
      obtain ⟨n, hn'⟩ := hn a List.mem_cons_self
      have hle : lowerBound a.2 thr ≤ n := by
        have := List.takeWhile_sublist (l := blkList a.2) (fun x => decide (thr < x))
        have := this.length_le
        simp only [blkList, hn'] at this
        unfold lowerBound
        simpa [blkList, hn'] using this
      have htk : (blkList a.2).takeWhile (fun x => decide (thr < x)) = (blkList a.2).take (lowerBound a.2 thr) := by
        unfold lowerBound
        exact List.prefix_iff_eq_take.1 (List.takeWhile_prefix _)
      rw [htk]
      unfold blkList
      simp only [indexSlices, hn', List.zipWith_cons_cons, List.zipWith_nil_left, List.getD_cons_zero, Nat.zero_min, Nat.sub_zero,
        Nat.min_eq_left hle]
      rw [← List.map_take, List.take_range, Nat.min_eq_left hle]
      apply List.map_congr_left
      intro i _
      simp

/-- `keepAbove` in terms of the sorted values. -/
theorem keepAbove_eq [Field α] [LinearOrder α] [IsStrictOrderedRing α] (d : BT G α) (hne : vectorValues d.blocks ≠ [])
    (hlen : (vectorValues d.blocks).length < 2 ^ 63) (tol : α) (htol : 0 ≤ tol) (pw : α → α) (hpw : ∀ x, 0 ≤ x → 0 ≤ pw x) (eps : α)
    (maxS minS : Nat) (hmin : 1 ≤ minS) :
    ∃ (v : List α) (K : Nat), v.Perm (vectorValues d.blocks) ∧ v.Pairwise (· ≥ ·) ∧ 1 ≤ K ∧ K ≤ v.length ∧
      keepAbove d maxS minS tol pw eps = .ok (v.getD (K - 1) 0 - 2 * v.getD (K - 1) 0 * eps) ∧
      min minS v.length ≤ K ∧ K ≤ max minS maxS ∧ (K < maxS → weight pw (v.drop K) ≤ pw tol) ∧
      (∀ j < K, minS ≤ j → pw tol < weight pw (v.drop j)) := by
  set v := (vectorValues d.blocks).insertionSort (· ≥ ·) with hv
  have hp : v.Perm (vectorValues d.blocks) := List.perm_insertionSort _ _
  have hl := hp.length_eq
  have h1 : 1 ≤ v.length := by
    rw [hl]
    exact List.length_pos_iff.2 hne
  obtain ⟨K, k1, k2, k3, k4, k5, k6, k7⟩ := QuantiT.C37_truncation (⟨v.length, [v]⟩ : LA.Rows α) (by simp) h1 (by simp only; omega) tol pw hpw htol minS
    maxS hmin
  refine ⟨v, K, hp, List.pairwise_insertionSort _ _, k1, k4, ?_, k3, k5, ?_, ?_⟩
  · unfold keepAbove
    have e : (allValues d).insertionSort (· ≥ ·) = v := rfl
    have hc := QuantiT.Rows.col_nat (⟨v.length, [v]⟩ : LA.Rows α) (K - 1) (by simp only; simp only at k4; omega)
    rw [e]
    simp only [k2, bind, Except.bind]
    rw [show ((K : Int) - 1) = ((K - 1 : Nat) : Int) by omega, hc]
    rfl
  · intro h
    exact k6 h v (List.mem_singleton.2 rfl)
  · intro j hj hm
    have := k7 j hj hm
    unfold LosesAtMost at this
    simp only [List.mem_singleton, forall_eq, not_le] at this
    exact this

/-- The result of `truncate_impl`. -/
theorem truncateImpl_eq [AddCommMonoid G] [Field α] [LinearOrder α] (d : BT G α) (us : List (BT G R)) (sec : Dim G)
    (hd : d.shape = [sec]) (hc : Conserving d.shape d.rule d.blocks) (hdesc : Descending d.blocks)
    (hu : ∀ u ∈ us, ∃ lead r, u.shape = lead ++ [r] ∧ r.length = sec.length)
    (maxS minS : Nat) (tol : α) (pw : α → α) (eps thr : α) (hthr : keepAbove d maxS minS tol pw eps = .ok thr) :
    ∃ us', truncateImpl d us maxS minS tol pw eps =
        .ok (⟨[resized (above d.blocks thr) sec], d.rule, keptBlocks thr d.blocks⟩, us') ∧
      List.Forall₂ (UInv d.blocks d.blocks thr sec.length) us us' := by
  have hk : ∀ kb ∈ d.blocks, ∃ j < sec.length, kb.1 = [j] := by
    intro kb hkb
    obtain ⟨secs, h1, _⟩ := hc.block kb.1 kb.2 hkb
    rw [hd] at h1
    match hk : kb.1 with
    | [] => rw [hk] at h1; cases h1
    | [j] =>
      rw [hk] at h1
      obtain ⟨s, r, h3, _⟩ := sections_cons.1 h1
      exact ⟨j, (List.getElem?_eq_some_iff.1 h3).1, rfl⟩
    | j :: j' :: l =>
      rw [hk] at h1
      obtain ⟨s, r, _, h4, _⟩ := sections_cons.1 h1
      cases h4
  obtain ⟨us', h1, h2⟩ := truncLoop_eq thr sec d.blocks hdesc us d.blocks [] rfl hk hc.sorted hu
  refine ⟨us', ?_, h2⟩
  unfold truncateImpl
  simp only [hthr, bind, Except.bind, hd, List.flatten_cons, List.flatten_nil, List.append_nil, h1]

theorem vector_dims [AddCommMonoid G] {sec : Dim G} {rule : G} {blocks : List (List Nat × Blk α)} (hc : Conserving [sec] rule blocks) :
    ∀ kb ∈ blocks, ∃ n, kb.2.dims = [n] := by
  intro kb hkb
  obtain ⟨secs, h1, _, h3⟩ := hc.block kb.1 kb.2 hkb
  have := (sections_length h1).2
  match secs, this with
  | [x], _ => exact ⟨x.1, h3⟩

/-- C40. No value that is discarded is as large as one that is kept, over all blocks together; nothing else happens to the
values. -/
theorem C40_largest [AddCommMonoid G] [Field α] [LinearOrder α] [IsStrictOrderedRing α] (d : BT G α) (us : List (BT G R))
    (sec : Dim G) (hd : d.shape = [sec]) (hc : Conserving d.shape d.rule d.blocks) (hdesc : Descending d.blocks)
    (hne : vectorValues d.blocks ≠ []) (hlen : (vectorValues d.blocks).length < 2 ^ 63)
    (hu : ∀ u ∈ us, ∃ lead r, u.shape = lead ++ [r] ∧ r.length = sec.length)
    (maxS minS : Nat) (hmin : 1 ≤ minS) (tol : α) (htol : 0 ≤ tol) (pw : α → α) (hpw : ∀ x, 0 ≤ x → 0 ≤ pw x) (eps : α) :
    ∃ d' us' lost, truncateImpl d us maxS minS tol pw eps = .ok (d', us') ∧
      (vectorValues d'.blocks ++ lost).Perm (vectorValues d.blocks) ∧
      ∀ x ∈ vectorValues d'.blocks, ∀ y ∈ lost, y < x := by
  obtain ⟨v, K, _, _, _, _, h, _⟩ := keepAbove_eq d hne hlen tol htol pw hpw eps maxS minS hmin
  obtain ⟨us', h1, _⟩ := truncateImpl_eq d us sec hd hc hdesc hu maxS minS tol pw eps _ h
  refine ⟨_, us', (vectorValues d.blocks).filter fun x => !decide (v.getD (K - 1) 0 - 2 * v.getD (K - 1) 0 * eps < x), h1, ?_, ?_⟩
  · simp only [vectorValues_kept _ d.blocks hdesc (vector_dims (hd ▸ hc))]
    exact List.filter_append_perm _ _
  · intro x hx y hy
    simp only [vectorValues_kept _ d.blocks hdesc (vector_dims (hd ▸ hc)), List.mem_filter, decide_eq_true_eq, Bool.not_eq_true',
      decide_eq_false_iff_not, not_lt] at hx hy
    exact hy.2.trans_lt hx.2

theorem getD_le_of_desc [LinearOrder α] [Zero α] {v : List α} (h : v.Pairwise (· ≥ ·)) {i j : Nat} (hij : i ≤ j) (hj : j < v.length) :
    v.getD j 0 ≤ v.getD i 0 := by
  rw [List.getD_eq_getElem _ _ hj, List.getD_eq_getElem _ _ (by omega)]
  rcases Nat.eq_or_lt_of_le hij with rfl | h'
  · exact le_rfl
  · exact List.pairwise_iff_getElem.1 h i j (by omega) hj h'

theorem weight_perm [Field α] [LinearOrder α] {pw : α → α} {l l' : List α} (h : l.Perm l') : weight pw l = weight pw l' := by
  unfold weight
  exact (h.map _).sum_eq

theorem weight_sublist [Field α] [LinearOrder α] [IsStrictOrderedRing α] {pw : α → α} (hpw : ∀ x, 0 ≤ x → 0 ≤ pw x) {l l' : List α}
    (h : l.Sublist l') : weight pw l ≤ weight pw l' := by
  unfold weight
  refine (h.map _).sum_le_sum ?_
  intro a ha
  obtain ⟨x, _, rfl⟩ := List.mem_map.1 ha
  exact hpw _ (abs_nonneg x)

/-- If at least `min_size` values are positive, so is the smallest value kept. -/
theorem smallest_pos [Field α] [LinearOrder α] [IsStrictOrderedRing α] {v : List α} (hv : v.Pairwise (· ≥ ·)) (h0 : ∀ x ∈ v, 0 ≤ x)
    {pw : α → α} (hpw : ∀ x, 0 ≤ x → 0 ≤ pw x) (hp0 : pw 0 = 0) {tol : α} (htol : 0 ≤ tol) {minS K : Nat} (hK1 : 1 ≤ K) (hK : K ≤ v.length)
    (hK2 : ∀ j < K, minS ≤ j → pw tol < weight pw (v.drop j)) (hpos : minS ≤ (v.filter fun x => decide (0 < x)).length) :
    0 < v.getD (K - 1) 0 := by
  by_contra hc
  have hz : ∀ i, K - 1 ≤ i → i < v.length → v.getD i 0 = 0 := by
    intro i h1 h2
    refine le_antisymm ((getD_le_of_desc hv h1 h2).trans (not_lt.1 hc)) ?_
    rw [List.getD_eq_getElem _ _ h2]
    exact h0 _ (List.getElem_mem h2)
  have hd0 : ∀ x ∈ v.drop (K - 1), x = 0 := by
    intro x hx
    obtain ⟨i, hi, rfl⟩ := List.getElem_of_mem hx
    rw [List.getElem_drop]
    have := hz (K - 1 + i) (by omega) (by simp at hi; omega)
    rwa [List.getD_eq_getElem] at this
  have hlt : (v.filter fun x => decide (0 < x)).length ≤ K - 1 := by
    conv_lhs => rw [← List.take_append_drop (K - 1) v, List.filter_append]
    have : (v.drop (K - 1)).filter (fun x => decide (0 < x)) = [] := by
      rw [List.filter_eq_nil_iff]
      intro x hx
      simp [hd0 x hx]
    rw [this, List.append_nil]
    refine (List.filter_sublist.length_le).trans ?_
    simp
  have := hK2 (K - 1) (by omega) (by omega)
  have hw : weight pw (v.drop (K - 1)) = 0 := by
    unfold weight
    refine List.sum_eq_zero fun x hx => ?_
    obtain ⟨y, hy, rfl⟩ := List.mem_map.1 hx
    rw [hd0 y hy, abs_zero, hp0]
  rw [hw] at this
  exact absurd (hpw tol htol) (not_le.2 this)

/-- C40, the bounds from below: if at least `min` of the singular values are positive, at least `min` are kept; and the
weight of the discarded ones is at most `tol^pow`, unless that takes more than `max` values.
Missing: without enough positive values fewer are kept, see `C40_zeros_fails`. -/
theorem C40_min_partial [AddCommMonoid G] [Field α] [LinearOrder α] [IsStrictOrderedRing α] (d : BT G α) (us : List (BT G R))
    (sec : Dim G) (hd : d.shape = [sec]) (hc : Conserving d.shape d.rule d.blocks) (hdesc : Descending d.blocks)
    (hlen : (vectorValues d.blocks).length < 2 ^ 63) (h0 : ∀ x ∈ vectorValues d.blocks, 0 ≤ x)
    (hu : ∀ u ∈ us, ∃ lead r, u.shape = lead ++ [r] ∧ r.length = sec.length)
    (maxS minS : Nat) (hmin : 1 ≤ minS) (hpos : minS ≤ ((vectorValues d.blocks).filter fun x => decide (0 < x)).length)
    (tol : α) (htol : 0 ≤ tol) (pw : α → α) (hpw : ∀ x, 0 ≤ x → 0 ≤ pw x) (hp0 : pw 0 = 0) (eps : α) (heps : 0 < eps) :
    ∃ d' us' lost, truncateImpl d us maxS minS tol pw eps = .ok (d', us') ∧
      (vectorValues d'.blocks ++ lost).Perm (vectorValues d.blocks) ∧
      minS ≤ (vectorValues d'.blocks).length ∧
      ((vectorValues d'.blocks).length < maxS → weight pw lost ≤ pw tol) := by
  have hne : vectorValues d.blocks ≠ [] := by
    intro h
    rw [h] at hpos
    simp at hpos
    omega
  obtain ⟨v, K, hp, hv, hK1, hK, h, hK3, hK4, hK5, hK6⟩ := keepAbove_eq d hne hlen tol htol pw hpw eps maxS minS hmin
  have hs := smallest_pos hv (fun x hx => h0 x (hp.mem_iff.1 hx)) hpw hp0 htol hK1 hK hK6 (by
    rw [(hp.filter _).length_eq]; exact hpos)
  set s := v.getD (K - 1) 0 with hsd
  have hlt : s - 2 * s * eps < s := by
    have := mul_pos hs heps
    linarith
  obtain ⟨us', h1, _⟩ := truncateImpl_eq d us sec hd hc hdesc hu maxS minS tol pw eps _ h
  have hkept := vectorValues_kept (s - 2 * s * eps) d.blocks hdesc (vector_dims (hd ▸ hc))
  have hkp : (vectorValues (keptBlocks (s - 2 * s * eps) d.blocks)).Perm (v.filter fun x => decide (s - 2 * s * eps < x)) := by
    rw [hkept]; exact (hp.symm.filter _)
  have htake : (v.take K).filter (fun x => decide (s - 2 * s * eps < x)) = v.take K := by
    rw [List.filter_eq_self]
    intro x hx
    obtain ⟨i, hi, rfl⟩ := List.getElem_of_mem hx
    have hiK : i < K := by simp at hi; omega
    rw [List.getElem_take]
    have := getD_le_of_desc hv (i := i) (j := K - 1) (by omega) (by omega)
    rw [List.getD_eq_getElem v 0 (show i < v.length by omega)] at this
    exact decide_eq_true (hlt.trans_le this)
  have hsplit : v.filter (fun x => decide (s - 2 * s * eps < x)) = v.take K ++ (v.drop K).filter fun x => decide (s - 2 * s * eps < x) := by
    conv_lhs => rw [← List.take_append_drop K v, List.filter_append, htake]
  have hKle : K ≤ (vectorValues (keptBlocks (s - 2 * s * eps) d.blocks)).length := by
    rw [hkp.length_eq, hsplit]
    simp
    omega
  refine ⟨_, us', (vectorValues d.blocks).filter fun x => !decide (s - 2 * s * eps < x), h1, ?_, ?_, ?_⟩
  · simp only [hkept]
    exact List.filter_append_perm _ _
  · have : minS ≤ v.length := hpos.trans (by rw [← (hp.filter _).length_eq]; exact List.length_filter_le _ _)
    simp only
    omega
  · intro hm
    refine le_trans ?_ (hK5 (hKle.trans_lt hm))
    rw [weight_perm (hp.symm.filter _)]
    have hl : v.filter (fun x => !decide (s - 2 * s * eps < x)) = (v.drop K).filter fun x => !decide (s - 2 * s * eps < x) := by
      conv_lhs => rw [← List.take_append_drop K v, List.filter_append]
      rw [List.filter_eq_nil_iff.2, List.nil_append]
      intro x hx
      have : x ∈ (v.take K).filter (fun x => decide (s - 2 * s * eps < x)) := by rw [htake]; exact hx
      simpa using (List.mem_filter.1 this).2
    rw [hl]
    exact weight_sublist hpw List.filter_sublist

/-- C40, the bound from above: no more than `max` values are kept (or `min`, if that is larger) when the values differ by more than
the precision used to recognise degenerate values.
Missing: equal values are kept or discarded together, see `C40_ties_fails`. -/
theorem C40_max_partial [AddCommMonoid G] [Field α] [LinearOrder α] [IsStrictOrderedRing α] (d : BT G α) (us : List (BT G R))
    (sec : Dim G) (hd : d.shape = [sec]) (hc : Conserving d.shape d.rule d.blocks) (hdesc : Descending d.blocks)
    (hne : vectorValues d.blocks ≠ []) (hlen : (vectorValues d.blocks).length < 2 ^ 63) (h0 : ∀ x ∈ vectorValues d.blocks, 0 ≤ x)
    (hu : ∀ u ∈ us, ∃ lead r, u.shape = lead ++ [r] ∧ r.length = sec.length)
    (maxS minS : Nat) (hmin : 1 ≤ minS) (tol : α) (htol : 0 ≤ tol) (pw : α → α) (hpw : ∀ x, 0 ≤ x → 0 ≤ pw x) (eps : α) (heps : 0 < eps)
    (hgap : (vectorValues d.blocks).Pairwise fun x y => x ≤ y - 2 * y * eps ∨ y ≤ x - 2 * x * eps) :
    ∃ d' us', truncateImpl d us maxS minS tol pw eps = .ok (d', us') ∧ (vectorValues d'.blocks).length ≤ max minS maxS := by
  obtain ⟨v, K, hp, hv, hK1, hK, h, hK3, hK4, hK5, hK6⟩ := keepAbove_eq d hne hlen tol htol pw hpw eps maxS minS hmin
  set s := v.getD (K - 1) 0 with hsd
  obtain ⟨us', h1, _⟩ := truncateImpl_eq d us sec hd hc hdesc hu maxS minS tol pw eps _ h
  refine ⟨_, us', h1, le_trans ?_ hK4⟩
  simp only
  rw [vectorValues_kept (s - 2 * s * eps) d.blocks hdesc (vector_dims (hd ▸ hc)), ← (hp.filter _).length_eq]
  have hg : v.Pairwise fun x y => x ≤ y - 2 * y * eps ∨ y ≤ x - 2 * x * eps :=
    (hp.pairwise_iff (fun {x y} h => h.symm)).2 hgap
  have hdrop : (v.drop K).filter (fun x => decide (s - 2 * s * eps < x)) = [] := by
    rw [List.filter_eq_nil_iff]
    intro x hx
    obtain ⟨i, hi, rfl⟩ := List.getElem_of_mem hx
    have hi' : K + i < v.length := by simp at hi; omega
    rw [List.getElem_drop]
    have hle := getD_le_of_desc hv (i := K - 1) (j := K + i) (by omega) hi'
    rw [← hsd, List.getD_eq_getElem v 0 hi'] at hle
    have hx0 := h0 _ (hp.mem_iff.1 (List.getElem_mem hi'))
    have hge := List.pairwise_iff_getElem.1 hg (K - 1) (K + i) (by omega) hi' (by omega)
    rw [← List.getD_eq_getElem v 0 (show K - 1 < v.length by omega), ← hsd] at hge
    generalize v[K + i] = x at hle hx0 hge
    rw [decide_eq_true_eq, not_lt]
    rcases hge with hge | hge
    · have h2 : x * eps ≤ 0 := by linarith
      have h3 : x = 0 := by
        by_contra hx
        exact absurd (mul_pos (lt_of_le_of_ne hx0 (Ne.symm hx)) heps) (not_lt.2 h2)
      subst h3
      have h4 : s = 0 := le_antisymm (by simpa using hge) hle
      rw [h4]; simp
    · exact hge
  conv_lhs => rw [← List.take_append_drop K v, List.filter_append, hdrop, List.append_nil]
  refine (List.filter_sublist.length_le).trans ?_
  simp

/-- Equal singular values are never separated: if all are equal and positive then all are kept, whatever `max` is. -/
theorem C40_ties_fails [AddCommMonoid G] [Field α] [LinearOrder α] [IsStrictOrderedRing α] (d : BT G α) (us : List (BT G R))
    (sec : Dim G) (hd : d.shape = [sec]) (hc : Conserving d.shape d.rule d.blocks)
    (hne : vectorValues d.blocks ≠ []) (hlen : (vectorValues d.blocks).length < 2 ^ 63) (c : α) (hpos : 0 < c)
    (h0 : ∀ x ∈ vectorValues d.blocks, x = c)
    (hu : ∀ u ∈ us, ∃ lead r, u.shape = lead ++ [r] ∧ r.length = sec.length)
    (maxS minS : Nat) (hmin : 1 ≤ minS) (tol : α) (htol : 0 ≤ tol) (pw : α → α) (hpw : ∀ x, 0 ≤ x → 0 ≤ pw x) (eps : α) (heps : 0 < eps) :
    ∃ d' us', truncateImpl d us maxS minS tol pw eps = .ok (d', us') ∧ vectorValues d'.blocks = vectorValues d.blocks := by
  have hmem : ∀ kb ∈ d.blocks, ∀ i < kb.2.dims.getD 0 0, kb.2.f [i] = c := by
    intro kb hkb i hi
    refine h0 _ ?_
    unfold vectorValues
    exact List.mem_flatMap.2 ⟨kb, hkb, List.mem_map.2 ⟨i, List.mem_range.2 hi, rfl⟩⟩
  have hdesc : Descending d.blocks := by
    intro kb hkb i j hij hj
    rw [hmem kb hkb i (by omega), hmem kb hkb j hj]
  obtain ⟨v, K, hp, hv, hK1, hK, h, -⟩ := keepAbove_eq d hne hlen tol htol pw hpw eps maxS minS hmin
  have hs : v.getD (K - 1) 0 = c := by
    rw [List.getD_eq_getElem v 0 (by omega)]
    exact h0 _ (hp.mem_iff.1 (List.getElem_mem _))
  rw [hs] at h
  obtain ⟨us', h1, _⟩ := truncateImpl_eq d us sec hd hc hdesc hu maxS minS tol pw eps _ h
  refine ⟨_, us', h1, ?_⟩
  simp only
  rw [vectorValues_kept _ d.blocks hdesc (vector_dims (hd ▸ hc)), List.filter_eq_self]
  intro x hx
  rw [h0 x hx, decide_eq_true_eq]
  have := mul_pos hpos heps
  linarith

/-- If all singular values are zero none is kept, whatever `min` is. -/
theorem C40_zeros_fails [AddCommMonoid G] [Field α] [LinearOrder α] [IsStrictOrderedRing α] (d : BT G α) (us : List (BT G R))
    (sec : Dim G) (hd : d.shape = [sec]) (hc : Conserving d.shape d.rule d.blocks)
    (hne : vectorValues d.blocks ≠ []) (hlen : (vectorValues d.blocks).length < 2 ^ 63)
    (h0 : ∀ x ∈ vectorValues d.blocks, x = 0)
    (hu : ∀ u ∈ us, ∃ lead r, u.shape = lead ++ [r] ∧ r.length = sec.length)
    (maxS minS : Nat) (hmin : 1 ≤ minS) (tol : α) (htol : 0 ≤ tol) (pw : α → α) (hpw : ∀ x, 0 ≤ x → 0 ≤ pw x) (eps : α) :
    ∃ d' us', truncateImpl d us maxS minS tol pw eps = .ok (d', us') ∧ vectorValues d'.blocks = [] := by
  have hmem : ∀ kb ∈ d.blocks, ∀ i < kb.2.dims.getD 0 0, kb.2.f [i] = 0 := by
    intro kb hkb i hi
    refine h0 _ ?_
    unfold vectorValues
    exact List.mem_flatMap.2 ⟨kb, hkb, List.mem_map.2 ⟨i, List.mem_range.2 hi, rfl⟩⟩
  have hdesc : Descending d.blocks := by
    intro kb hkb i j hij hj
    rw [hmem kb hkb i (by omega), hmem kb hkb j hj]
  obtain ⟨v, K, hp, hv, hK1, hK, h, -⟩ := keepAbove_eq d hne hlen tol htol pw hpw eps maxS minS hmin
  have hs : v.getD (K - 1) 0 = 0 := by
    rw [List.getD_eq_getElem v 0 (by omega)]
    exact h0 _ (hp.mem_iff.1 (List.getElem_mem _))
  rw [hs] at h
  obtain ⟨us', h1, _⟩ := truncateImpl_eq d us sec hd hc hdesc hu maxS minS tol pw eps _ h
  refine ⟨_, us', h1, ?_⟩
  simp only
  rw [vectorValues_kept _ d.blocks hdesc (vector_dims (hd ▸ hc)), List.filter_eq_nil_iff]
  intro x hx
  rw [h0 x hx]
  simp

/-- The truncation of an eigenvalue decomposition always throws: the eigenvalues are moved away before they are read. -/
theorem C40_eigh_fails [Field α] [LinearOrder α] (e S : BT G α) (maxS minS : Nat) (tol : α) (pw : α → α) (eps : α) :
    truncateEigh (e, S) maxS minS tol pw eps = Res.throw .outOfRange := rfl

/-! ### The factors -/

/-- What truncation makes of a factor `u` whose last dimension `r` is the bond: `keep j` values of section `j` are kept (`none`:
`d` has no block there). -/
structure CutFactor [AddCommMonoid G] (keep : Nat → Option Nat) (lead : Shape G) (r : Dim G) (u u' : BT G R) : Prop where
  shape : u'.shape = lead ++ [resized keep r]
  rule : u'.rule = u.rule
  /-- blocks of sections that keep a value are cut down to the values kept -/
  cut : ∀ k j b s, (k ++ [j], b) ∈ u.blocks → r[j]? = some s → keep j ≠ some 0 →
    ∃ b', (k ++ [j], b') ∈ u'.blocks ∧ FirstCols (newSize (keep j) s.1) b b'

theorem above_le [AddCommMonoid G] [LinearOrder α] {sec : Dim G} {rule : G} {blocks : List (List Nat × Blk α)} (hc : Conserving [sec] rule blocks)
    {thr : α} {j n : Nat} {s : Nat × G} (h : above blocks thr j = some n) (hs : sec[j]? = some s) : n ≤ s.1 := by
  unfold above at h
  obtain ⟨b, hb, rfl⟩ := Option.map_eq_some_iff.1 h
  obtain ⟨secs, h1, _, h3⟩ := hc.block _ _ (mem_of_lookup hb)
  obtain ⟨s', r, h4, h5, rfl⟩ := sections_cons.1 h1
  cases h5
  rw [hs] at h4
  cases h4
  rw [h3]
  refine (List.length_filter_le _ _).trans ?_
  simp

theorem newSize_le {o : Option Nat} {n : Nat} (h : ∀ k, o = some k → k ≤ n) : newSize o n ≤ n := by
  unfold newSize
  split
  · exact h _ rfl
  · exact le_rfl

theorem firstCols_cut [LinearOrder α] {B : List (List Nat × Blk α)} {thr : α} {k : List Nat} {j : Nat} {b : Blk R} {ds : List Nat} {n : Nat}
    (hb : b.dims = ds ++ [n]) (hle : newSize (above B thr j) n ≤ n) (h0 : above B thr j ≠ some 0) :
    FirstCols (newSize (above B thr j) n) b (cutBlk B thr (k ++ [j], b)).2 := by
  unfold cutBlk
  simp only [List.getLast?_append, List.getLast?_singleton, Option.some_or, Option.bind_some]
  cases h : above B thr j with
  | none =>
    refine ⟨by rw [hb]; simp [newSize], fun o _ => rfl⟩
  | some m =>
    cases m with
    | zero => exact absurd h h0
    | succ m =>
      rw [h] at hle
      simp only [newSize] at hle ⊢
      have hset : ((b.dims.map fun n => ((0 : Nat), n)).set (b.dims.length - 1) (0, m + 1)) = (ds.map fun n => (0, n)) ++ [(0, m + 1)] := by
        rw [hb]
        simp
      have hd : (colsTo b (m + 1)).dims = ds ++ [m + 1] := by
        unfold colsTo indexSlices
        rw [hset]
        simp only [hb]
        rw [List.zipWith_append (by simp)]
        congr 1
        · rw [List.zipWith_map_right, List.zipWith_self]
          simp
        · simp; omega
      refine ⟨by rw [hd, hb]; simp, ?_⟩
      intro o ho
      show b.f (List.zipWith (fun x (s : Nat × Nat) => s.1 + x) o _) = b.f o
      rw [hset]
      congr 1
      have hl : o.length = ds.length + 1 := by
        rw [hd] at ho
        have := ho.length_eq
        simpa using this
      apply List.ext_getElem
      · simp [hl]
      · intro i h1 h2
        rw [List.getElem_zipWith]
        have : (((ds.map fun n => ((0 : Nat), n)) ++ [(0, m + 1)])[i]'(by simp; omega)).1 = 0 := by
          rw [List.getElem_append]
          split <;> simp
        omega

/-- The factors after `truncate_impl`, for the threshold `thr` of the values. -/
theorem factors_core [AddCommMonoid G] [Field α] [LinearOrder α] [IsStrictOrderedRing α] (d : BT G α) (us : List (BT G R))
    (sec : Dim G) (hd : d.shape = [sec]) (hc : Conserving d.shape d.rule d.blocks) (hdesc : Descending d.blocks)
    (hu : ∀ u ∈ us, Conserving u.shape u.rule u.blocks ∧ ∃ lead r, u.shape = lead ++ [r] ∧ r.map Prod.fst = sec.map Prod.fst)
    (maxS minS : Nat) (tol : α) (pw : α → α) (eps thr : α) (h : keepAbove d maxS minS tol pw eps = .ok thr) :
    ∃ d' us', truncateImpl d us maxS minS tol pw eps = .ok (d', us') ∧
      (d'.shape = [resized (above d.blocks thr) sec] ∧ d'.rule = d.rule ∧ Conserving d'.shape d'.rule d'.blocks ∧
        CutFactor (above d.blocks thr) [] sec d d' ∧
        ∀ j, lookup d'.blocks [j] = none ↔ above d.blocks thr j = none ∨ above d.blocks thr j = some 0) ∧
      vectorValues d'.blocks = (vectorValues d.blocks).filter (fun x => decide (thr < x)) ∧
      List.Forall₂ (fun u u' => ∀ lead r, u.shape = lead ++ [r] → CutFactor (above d.blocks thr) lead r u u' ∧
        Stored u'.shape u'.rule u'.blocks ∧
        (∀ k b', (k, b') ∈ u'.blocks → ∃ b, (k, b) ∈ u.blocks ∧ (emptiedIn d.blocks thr k → b' = b)) ∧
        ((∀ kb, u.blocks.getLast? = some kb → emptiedIn d.blocks thr kb.1 = false) → Conserving u'.shape u'.rule u'.blocks) ∧
        (Isolated (fun kb => emptiedIn d.blocks thr kb.1) u.blocks → Conserving u'.shape u'.rule u'.blocks ∧
          ∀ k b', (k, b') ∈ u'.blocks → emptiedIn d.blocks thr k = false)) us us' := by
  have hlen' : ∀ u ∈ us, ∃ lead r, u.shape = lead ++ [r] ∧ r.length = sec.length := by
    intro u hu'
    obtain ⟨_, lead, r, h1, h2⟩ := hu u hu'
    exact ⟨lead, r, h1, by simpa using congrArg List.length h2⟩
  obtain ⟨us', h1, h2⟩ := truncateImpl_eq d us sec hd hc hdesc hlen' maxS minS tol pw eps thr h
  have hc' : Conserving [sec] d.rule d.blocks := hd ▸ hc
  have hkb : ∀ k b', (k, b') ∈ keptBlocks thr d.blocks ↔ ∃ b, (k, b) ∈ d.blocks ∧ lowerBound b thr ≠ 0 ∧
      b' = indexSlices b [(0, lowerBound b thr)] := by
    intro k b'
    unfold keptBlocks
    rw [List.mem_filterMap]
    constructor
    · rintro ⟨⟨k', b⟩, hm, he⟩
      by_cases h0 : lowerBound b thr = 0
      · simp [h0] at he
      · simp only [h0, if_false, Option.some.injEq, Prod.mk.injEq] at he
        obtain ⟨rfl, rfl⟩ := he
        exact ⟨b, hm, h0, rfl⟩
    · rintro ⟨b, hm, h0, rfl⟩
      exact ⟨(k, b), hm, by simp [h0]⟩
  have hlb : ∀ j b, ([j], b) ∈ d.blocks → above d.blocks thr j = some (lowerBound b thr) := by
    intro j b hm
    unfold above
    rw [lookup_of_mem (e := ([j], b)) hc.sorted hm, (lowerBound_eq b thr (hdesc _ hm)).2]
    rfl
  refine ⟨_, us', h1, ⟨rfl, rfl, ⟨?_, ?_⟩, ⟨rfl, rfl, ?_⟩, ?_⟩, vectorValues_kept _ d.blocks hdesc (vector_dims hc'), ?_⟩
  · -- sorted
    show Sorted (keptBlocks thr d.blocks)
    have hs := hc.sorted
    unfold Sorted keptBlocks at *
    rw [List.pairwise_filterMap]
    refine hs.imp fun {a b} hab => ?_
    intro x hx y hy
    split at hx
    · cases hx
    · split at hy
      · cases hy
      · cases hx; cases hy
        exact hab
  · intro k b' hb'
    obtain ⟨b, hm, h0, rfl⟩ := (hkb k b').1 hb'
    obtain ⟨secs, s1, s2, s3⟩ := hc'.block k b hm
    match k, s1 with
    | j :: l, s1 =>
      obtain ⟨s, r, s4, s5, rfl⟩ := sections_cons.1 s1
      match l, s5 with
      | [], s5 =>
        cases s5
        have ha := hlb j b hm
        have hle := above_le hc' ha s4
        refine ⟨[(newSize (above d.blocks thr j) s.1, s.2)], ?_, s2, ?_⟩
        · refine sections_cons.2 ⟨_, [], ?_, rfl, rfl⟩
          simp [resized, s4]
        · rw [ha]
          simp only [indexSlices, s3, List.map_cons, List.map_nil, List.zipWith_cons_cons, List.zipWith_nil_left, Nat.zero_min, Nat.sub_zero,
            Nat.min_eq_left hle]
          obtain ⟨m, hm'⟩ := Nat.exists_eq_succ_of_ne_zero h0
          rw [hm']
          rfl
  · intro k j b s hm hsj h0
    have hk0 : k = [] := by
      obtain ⟨secs, s1, _⟩ := hc'.block _ b hm
      have := (sections_length s1).1
      exact List.length_eq_zero_iff.1 (by simpa using this)
    subst hk0
    simp only [List.nil_append] at hm ⊢
    have ha := hlb j b hm
    have h0' : lowerBound b thr ≠ 0 := fun h => h0 (by rw [ha, h])
    refine ⟨_, (hkb _ _).2 ⟨b, hm, h0', rfl⟩, ?_⟩
    obtain ⟨secs, s1, _, s3⟩ := hc'.block _ b hm
    obtain ⟨s', r, s4, s5, rfl⟩ := sections_cons.1 s1
    cases s5
    rw [hsj] at s4
    cases s4
    have hle := above_le hc' ha hsj
    rw [ha]
    obtain ⟨m, hm'⟩ := Nat.exists_eq_succ_of_ne_zero h0'
    rw [hm'] at hle ⊢
    refine ⟨?_, ?_⟩
    · simp only [indexSlices, s3, List.map_cons, List.map_nil, List.zipWith_cons_cons, List.zipWith_nil_left, Nat.zero_min, Nat.sub_zero,
        Nat.min_eq_left hle]
      rfl
    · intro o ho
      have hd1 : (indexSlices b [(0, m.succ)]).dims.length = 1 := by simp [indexSlices, s3]
      have hl : o.length = 1 := (inRange_length ho).trans hd1
      match o, hl with
      | [x], _ => simp [indexSlices]
  · intro j
    show lookup (keptBlocks thr d.blocks) [j] = none ↔ _
    rw [lookup_eq_none]
    constructor
    · intro hn
      cases ha : above d.blocks thr j with
      | none => exact .inl rfl
      | some n =>
        right
        unfold above at ha
        obtain ⟨b, hb, _⟩ := Option.map_eq_some_iff.1 ha
        have hm := mem_of_lookup hb
        have ha' := hlb j b hm
        unfold above at ha'
        rw [ha] at ha'
        by_contra hc0
        have := hn ([j], _) ((hkb _ _).2 ⟨b, hm, by
          intro h0
          rw [h0] at ha'
          exact hc0 ha', rfl⟩)
        exact this rfl
    · rintro hn ⟨k, b'⟩ hb' rfl
      obtain ⟨b, hm, h0, _⟩ := (hkb _ _).1 hb'
      rw [hlb j b hm] at hn
      rcases hn with hn | hn
      · cases hn
      · exact h0 (Option.some.inj hn)
  · have h3 : List.Forall₂ (fun u u' => u ∈ us ∧ UInv d.blocks d.blocks thr sec.length u u') us us' := by
      clear h1
      have : ∀ us0 us0', (∀ u ∈ us0, u ∈ us) → List.Forall₂ (UInv d.blocks d.blocks thr sec.length) us0 us0' →
          List.Forall₂ (fun u u' => u ∈ us ∧ UInv d.blocks d.blocks thr sec.length u u') us0 us0' := by
        intro us0 us0' hm hf
        induction hf with
        | nil => exact .nil
        | cons hh _ ih => exact .cons ⟨hm _ List.mem_cons_self, hh⟩ (ih fun u h => hm u (List.mem_cons_of_mem _ h))
      exact this us us' (fun _ h => h) h2
    refine h3.imp ?_
    rintro u u' ⟨hm, hinv⟩ lead r hs
    obtain ⟨hcu, lead', r', hs', hsz⟩ := hu u hm
    have hlr : lead' = lead ∧ r' = r := by
      rw [hs] at hs'
      have := List.append_inj' hs' rfl
      exact ⟨this.1.symm, by simpa using this.2.symm⟩
    obtain ⟨rfl, rfl⟩ := hlr
    have hshape : u'.shape = lead' ++ [resized (above d.blocks thr) r'] := by
      obtain ⟨lead'', r'', e1, _, e2⟩ := hinv.shape
      rw [hs] at e1
      have := List.append_inj' e1 rfl
      have h4 : r' = r'' := by simpa using this.2
      rw [e2, this.1, h4]
    -- blocks of a section
    have hblk : ∀ k b, (k, b) ∈ u.blocks → ∃ k0 j s s0 secs, k = k0 ++ [j] ∧ sections lead' k0 = some secs ∧ r'[j]? = some s ∧
        sec[j]? = some s0 ∧ s0.1 = s.1 ∧ b.dims = secs.map Prod.fst ++ [s.1] ∧ charge (secs ++ [s]) = u.rule := by
      intro k b hkb
      obtain ⟨secs, s1, s2, s3⟩ := hcu.block k b hkb
      rw [hs] at s1
      obtain ⟨b1, b2, r1, r2, rfl, rfl, s4, s5⟩ := sections_append_inv s1
      match b2, s5 with
      | j :: l, s5 =>
        obtain ⟨s, r, s6, s7, rfl⟩ := sections_cons.1 s5
        match l, s7 with
        | [], s7 =>
          cases s7
          have hj : (sec.map Prod.fst)[j]? = some s.1 := by rw [← hsz]; simp [s6]
          rw [List.getElem?_map, Option.map_eq_some_iff] at hj
          obtain ⟨s0, t1, t2⟩ := hj
          exact ⟨b1, j, s, s0, r1, rfl, s4, s6, t1, t2, by rw [s3]; simp, s2⟩
    have hnle : ∀ j s s0, sec[j]? = some s0 → s0.1 = (s : Nat × G).1 → newSize (above d.blocks thr j) s.1 ≤ s.1 := by
      intro j s s0 t1 t2
      exact newSize_le fun k hk => by rw [← t2]; exact above_le hc' hk t1
    refine ⟨⟨hshape, hinv.rule, ?_⟩, ?_⟩
    · intro k j b s hkb hsj h0
      obtain ⟨k0, j', s', s0, secs, e, _, t1, t2, t3, t4, _⟩ := hblk _ _ hkb
      have e' := List.append_inj' e rfl
      have hjj : j = j' := by simpa using e'.2
      subst hjj
      rw [hsj] at t1
      cases t1
      refine ⟨(cutBlk d.blocks thr (k ++ [j], b)).2, ?_, firstCols_cut t4 (hnle j s s0 t2 t3) h0⟩
      have hst := hinv.stay _ hkb (by
        unfold emptiedIn
        simpa using h0)
      rwa [← Prod.mk.eta (p := cutBlk d.blocks thr (k ++ [j], b)), cutBlk_fst] at hst
    · -- all blocks
      have hmem : ∀ k b', (k, b') ∈ u'.blocks → ∃ b, (k, b) ∈ u.blocks ∧ b' = (cutBlk d.blocks thr (k, b)).2 := by
        intro k b' hkb
        obtain ⟨⟨k1, b1⟩, m1, m2⟩ := List.mem_map.1 (hinv.sub.subset hkb)
        have : k1 = k := (cutBlk_fst d.blocks thr (k1, b1)).symm.trans (by rw [m2])
        subst this
        exact ⟨b1, m1, by rw [m2]⟩
      have hnd : (u.blocks.map Prod.fst).Nodup := by
        have := hcu.sorted
        unfold Sorted at this
        unfold List.Nodup
        rw [List.pairwise_map]
        exact this.imp fun {a b} hab => ne_of_lt hab
      have hkeys : (u.blocks.map (cutBlk d.blocks thr)).map Prod.fst = u.blocks.map Prod.fst := by
        rw [List.map_map]
        exact List.map_congr_left fun x _ => cutBlk_fst _ _ x
      have hempty : ∀ k (b : Blk R), emptiedIn d.blocks thr k = true → (cutBlk d.blocks thr (k, b)).2 = b := by
        intro k b he
        unfold emptiedIn at he
        rw [decide_eq_true_eq] at he
        unfold cutBlk
        rw [he]
      have hsto : Stored u'.shape u'.rule u'.blocks := by
        refine ⟨?_, ?_⟩
        · obtain ⟨l, l1, l2⟩ := hinv.sub
          refine (l1.map Prod.fst).nodup_iff.1 ((l2.map Prod.fst).nodup ?_)
          rw [hkeys]
          exact hnd
        · intro k b' hkb
          obtain ⟨b, m1, rfl⟩ := hmem k b' hkb
          obtain ⟨k0, j, s, s0, secs, rfl, t0, t1, t2, t3, t4, t5⟩ := hblk k b m1
          refine ⟨secs ++ [(newSize (above d.blocks thr j) s.1, s.2)], ?_, ?_, ?_⟩
          · rw [hshape]
            refine sections_append t0 (sections_cons.2 ⟨_, [], ?_, rfl, rfl⟩)
            simp [resized, t1]
          · rw [hinv.rule, ← t5]
            simp [charge]
          · by_cases h0 : above d.blocks thr j = some 0
            · rw [hempty _ _ (by unfold emptiedIn; simp [h0]), t4, h0]
              simp [newSize]
            · rw [(firstCols_cut (k := k0) t4 (hnle j s s0 t2 t3) h0).1, t4]
              simp
      have hsorted : u'.blocks.Sublist (u.blocks.map (cutBlk d.blocks thr)) → Sorted u'.blocks := by
        intro h
        have h1 := hcu.sorted
        unfold Sorted at h1 ⊢
        refine List.Pairwise.sublist h ?_
        rw [List.pairwise_map]
        refine h1.imp fun {a b} hab => ?_
        rw [cutBlk_fst, cutBlk_fst]
        exact hab
      refine ⟨hsto, ?_, fun hl => ⟨hsorted (hinv.last hl).1, hsto.block⟩, fun hi => ?_⟩
      · intro k b' hkb
        obtain ⟨b, m1, rfl⟩ := hmem k b' hkb
        exact ⟨b, m1, hempty k b⟩
      · have hb := hinv.iso hi
        refine ⟨⟨hsorted ?_, hsto.block⟩, ?_⟩
        · rw [hb]
          exact List.filter_sublist.map _
        · intro k b' hkb
          rw [hb, List.mem_map] at hkb
          obtain ⟨⟨k1, b1⟩, m1, m2⟩ := hkb
          have : k1 = k := (cutBlk_fst d.blocks thr (k1, b1)).symm.trans (by rw [m2])
          subst this
          rw [List.mem_filter] at m1
          simpa using m1.2

/-- C40, the factors: everything has the sizes of the kept values, and the blocks of sections that keep a value are cut down
to it.  All blocks come from blocks of the factor and are at allowed indices, with the right sizes; they are still in order if the last
block of the factor is in a section that keeps a value.  Blocks of sections that keep no value are dropped if in the list of
blocks no two of them are neighbours and the last block is not one of them.
Missing: otherwise such blocks may stay, and the order of the blocks may be lost, see `C40_factors_fails`. -/
theorem C40_factors_partial [AddCommMonoid G] [Field α] [LinearOrder α] [IsStrictOrderedRing α] (d : BT G α) (us : List (BT G R))
    (sec : Dim G) (hd : d.shape = [sec]) (hc : Conserving d.shape d.rule d.blocks) (hdesc : Descending d.blocks)
    (hne : vectorValues d.blocks ≠ []) (hlen : (vectorValues d.blocks).length < 2 ^ 63)
    (hu : ∀ u ∈ us, Conserving u.shape u.rule u.blocks ∧ ∃ lead r, u.shape = lead ++ [r] ∧ r.map Prod.fst = sec.map Prod.fst)
    (maxS minS : Nat) (hmin : 1 ≤ minS) (tol : α) (htol : 0 ≤ tol) (pw : α → α) (hpw : ∀ x, 0 ≤ x → 0 ≤ pw x) (eps : α) :
    ∃ thr d' us', truncateImpl d us maxS minS tol pw eps = .ok (d', us') ∧
      (d'.shape = [resized (above d.blocks thr) sec] ∧ d'.rule = d.rule ∧ Conserving d'.shape d'.rule d'.blocks ∧
        CutFactor (above d.blocks thr) [] sec d d' ∧
        ∀ j, lookup d'.blocks [j] = none ↔ above d.blocks thr j = none ∨ above d.blocks thr j = some 0) ∧
      vectorValues d'.blocks = (vectorValues d.blocks).filter (fun x => decide (thr < x)) ∧
      List.Forall₂ (fun u u' => ∀ lead r, u.shape = lead ++ [r] → CutFactor (above d.blocks thr) lead r u u' ∧
        Stored u'.shape u'.rule u'.blocks ∧
        (∀ k b', (k, b') ∈ u'.blocks → ∃ b, (k, b) ∈ u.blocks ∧ (emptiedIn d.blocks thr k → b' = b)) ∧
        ((∀ kb, u.blocks.getLast? = some kb → emptiedIn d.blocks thr kb.1 = false) → Conserving u'.shape u'.rule u'.blocks) ∧
        (Isolated (fun kb => emptiedIn d.blocks thr kb.1) u.blocks → Conserving u'.shape u'.rule u'.blocks ∧
          ∀ k b', (k, b') ∈ u'.blocks → emptiedIn d.blocks thr k = false)) us us' := by
  obtain ⟨v, K, _, _, _, _, h, _⟩ := keepAbove_eq d hne hlen tol htol pw hpw eps maxS minS hmin
  exact ⟨_, factors_core d us sec hd hc hdesc hu maxS minS tol pw eps _ h⟩

/-! ### Examples -/

/-- Two singular values in two sections; only the larger, in the second section, will be kept. -/
def ex40 : BT ℤ ℚ := ⟨[[(1, 0), (1, 0)]], 0, [([0], ⟨[1], fun _ => 1⟩), ([1], ⟨[1], fun _ => 2⟩)]⟩

theorem ex40_conserving : Conserving ex40.shape ex40.rule ex40.blocks := by
  refine ⟨by unfold Sorted; decide, ?_⟩
  intro k b h
  simp only [ex40, List.mem_cons, Prod.mk.injEq, List.not_mem_nil, or_false] at h
  rcases h with ⟨rfl, rfl⟩ | ⟨rfl, rfl⟩
  · exact ⟨[(1, 0)], rfl, rfl, rfl⟩
  · exact ⟨[(1, 0)], rfl, rfl, rfl⟩

theorem ex40_descending : Descending ex40.blocks := by
  intro kb h i j _ _
  simp only [ex40, List.mem_cons, List.not_mem_nil, or_false] at h
  rcases h with rfl | rfl <;> exact le_rfl

/-- A left factor with three row sections of charge 0, 1 and 0. -/
def ex40u : BT ℤ ℚ := ⟨[[(1, 0), (1, 1), (1, 0)], [(1, 0), (1, -1)]], 0,
  [([0, 0], ⟨[1, 1], fun _ => 1⟩), ([1, 1], ⟨[1, 1], fun _ => 1⟩), ([2, 0], ⟨[1, 1], fun _ => 1⟩)]⟩

theorem ex40u_conserving : Conserving ex40u.shape ex40u.rule ex40u.blocks := by
  refine ⟨by unfold Sorted; decide, ?_⟩
  intro k b h
  simp only [ex40u, List.mem_cons, Prod.mk.injEq, List.not_mem_nil, or_false] at h
  rcases h with ⟨rfl, rfl⟩ | ⟨rfl, rfl⟩ | ⟨rfl, rfl⟩
  · exact ⟨[(1, 0), (1, 0)], rfl, rfl, rfl⟩
  · exact ⟨[(1, 1), (1, -1)], rfl, rfl, rfl⟩
  · exact ⟨[(1, 0), (1, 0)], rfl, rfl, rfl⟩

/-- The same with two row sections of charge 0 and 1. -/
def ex40w : BT ℤ ℚ := ⟨[[(1, 0), (1, 1)], [(1, 0), (1, -1)]], 0,
  [([0, 0], ⟨[1, 1], fun _ => 1⟩), ([1, 1], ⟨[1, 1], fun _ => 1⟩)]⟩

theorem ex40w_conserving : Conserving ex40w.shape ex40w.rule ex40w.blocks := by
  refine ⟨by unfold Sorted; decide, ?_⟩
  intro k b h
  simp only [ex40w, List.mem_cons, Prod.mk.injEq, List.not_mem_nil, or_false] at h
  rcases h with ⟨rfl, rfl⟩ | ⟨rfl, rfl⟩
  · exact ⟨[(1, 0), (1, 0)], rfl, rfl, rfl⟩
  · exact ⟨[(1, 1), (1, -1)], rfl, rfl, rfl⟩

theorem ex40_thr : keepAbove ex40 1 1 0 (fun x => x ^ 2) (1 / 4) = .ok 1 := by
  have hl : LA.computeLastIndex (⟨2, [[2, 1]]⟩ : LA.Rows ℚ) 0 (fun x => x ^ 2) 1 1 = .ok 0 := by
    obtain ⟨K, k1, h, _, _, k2, _⟩ := QuantiT.C37_truncation (⟨2, [[2, 1]]⟩ : LA.Rows ℚ) (by simp) (by simp) (by norm_num) 0
      (fun x => x ^ 2) (fun x _ => sq_nonneg x) le_rfl 1 1 le_rfl
    have : K = 1 := by omega
    subst this
    exact h
  have hv : (allValues ex40).insertionSort (· ≥ ·) = [2, 1] := by
    have : allValues ex40 = [1, 2] := rfl
    rw [this]
    simp [List.insertionSort, List.orderedInsert]
  unfold keepAbove
  rw [hv]
  simp only [List.length_cons, List.length_nil, Nat.zero_add, Nat.reduceAdd, hl, bind, Except.bind]
  simp [LA.Rows.col]
  norm_num

/-- Blocks of an emptied section may stay, out of order: here the first of three blocks ends up behind the second. -/
theorem C40_factors_fails : ∃ d' u', truncateImpl ex40 [ex40u] 1 1 0 (fun x => x ^ 2) (1 / 4) = .ok (d', [u']) ∧
    lookup d'.blocks [0] = none ∧ u'.blocks.map Prod.fst = [[1, 1], [0, 0]] ∧ ¬ Sorted u'.blocks := by
  refine ⟨⟨[[(1, 0), (1, 0)]], 0, [([1], indexSlices ⟨[1], fun _ => 2⟩ [(0, 1)])]⟩,
    ⟨[[(1, 0), (1, 1), (1, 0)], [(1, 0), (1, -1)]], 0, [([1, 1], colsTo ⟨[1, 1], fun _ => 1⟩ 1), ([0, 0], ⟨[1, 1], fun _ => 1⟩)]⟩,
    ?_, rfl, rfl, ?_⟩
  · unfold truncateImpl
    rw [ex40_thr]
    rfl
  · unfold Sorted
    decide

/-- The hypotheses are met, with a factor whose unwanted block is dropped. -/
example : ∃ d' u', truncateImpl ex40 [ex40w] 1 1 0 (fun x => x ^ 2) (1 / 4) = .ok (d', [u']) ∧
    Isolated (fun kb => emptiedIn ex40.blocks 1 kb.1) ex40w.blocks ∧ u'.blocks.map Prod.fst = [[1, 1]] := by
  refine ⟨⟨[[(1, 0), (1, 0)]], 0, [([1], indexSlices ⟨[1], fun _ => 2⟩ [(0, 1)])]⟩,
    ⟨[[(1, 0), (1, 1)], [(1, 0), (1, -1)]], 0, [([1, 1], colsTo ⟨[1, 1], fun _ => 1⟩ 1)]⟩, ?_, ?_, rfl⟩
  · unfold truncateImpl
    rw [ex40_thr]
    rfl
  · exact ⟨fun _ => ⟨_, _, rfl, rfl⟩, fun h => absurd h (by decide), trivial⟩

example : ∃ thr d' us', truncateImpl ex40 [ex40w] 1 1 0 (fun x => x ^ 2) (1 / 4) = .ok (d', us') ∧
    vectorValues d'.blocks = (vectorValues ex40.blocks).filter (fun x => decide (thr < x)) := by
  obtain ⟨thr, d', us', h1, _, h2, _⟩ := C40_factors_partial ex40 [ex40w] _ rfl ex40_conserving ex40_descending (by simp [ex40, vectorValues])
    (by simp [ex40, vectorValues]) (by
      intro u hu
      rw [List.mem_singleton.1 hu]
      exact ⟨ex40w_conserving, [[(1, 0), (1, 1)]], [(1, 0), (1, -1)], rfl, rfl⟩) 1 1 le_rfl 0 le_rfl (fun x => x ^ 2) (fun x _ => sq_nonneg x) (1 / 4)
  exact ⟨thr, d', us', h1, h2⟩

example : ∃ d' us', truncateImpl ex40 [ex40u] 1 1 0 (fun x => x ^ 2) (1 / 4) = .ok (d', us') ∧ (vectorValues d'.blocks).length = 1 := by
  obtain ⟨d1, us1, lost, h1, _, h2, _⟩ := C40_min_partial ex40 [ex40u] _ rfl ex40_conserving ex40_descending
    (by simp [ex40, vectorValues]) (by simp [ex40, vectorValues]) (by
      intro u hu
      rw [List.mem_singleton.1 hu]
      exact ⟨[[(1, 0), (1, 1), (1, 0)]], [(1, 0), (1, -1)], rfl, rfl⟩) 1 1 le_rfl (by simp [ex40, vectorValues]) 0 le_rfl
    (fun x => x ^ 2) (fun x _ => sq_nonneg x) (by simp) (1 / 4) (by norm_num)
  obtain ⟨d2, us2, h3, h4⟩ := C40_max_partial ex40 [ex40u] _ rfl ex40_conserving ex40_descending (by simp [ex40, vectorValues])
    (by simp [ex40, vectorValues]) (by simp [ex40, vectorValues]) (by
      intro u hu
      rw [List.mem_singleton.1 hu]
      exact ⟨[[(1, 0), (1, 1), (1, 0)]], [(1, 0), (1, -1)], rfl, rfl⟩) 1 1 le_rfl 0 le_rfl
    (fun x => x ^ 2) (fun x _ => sq_nonneg x) (1 / 4) (by norm_num) (by simp [ex40, vectorValues]; norm_num)
  rw [h1] at h3
  cases h3
  exact ⟨d1, us1, h1, le_antisymm (by simpa using h4) h2⟩

/-- Equal values and zeros. -/
example : ∃ d : BT ℤ ℚ, Conserving d.shape d.rule d.blocks ∧ (∀ x ∈ vectorValues d.blocks, x = 3) ∧ vectorValues d.blocks = [3, 3] :=
  ⟨⟨[[(2, 0)]], 0, [([0], ⟨[2], fun _ => 3⟩)]⟩, ⟨by unfold Sorted; simp, by
    intro k b h
    simp only [List.mem_singleton, Prod.mk.injEq] at h
    obtain ⟨rfl, rfl⟩ := h
    exact ⟨[(2, 0)], rfl, rfl, rfl⟩⟩, by simp [vectorValues], by simp [vectorValues, List.range, List.range.loop]⟩

end BT
end QuantiT
