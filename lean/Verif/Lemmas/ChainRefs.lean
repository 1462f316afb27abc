import Verif.Model.ChainRefs
/-
Chains of handles and chains of values: every statement acts alike on both, unless it works in place on a tensor that has
several handles.
-/
namespace QuantiT
namespace MP
open Spec
variable {R : Type}

/-- Every handle is on a tensor that exists. -/
def Alive (s : Refs R) : Prop := ∀ v ∈ s.vars, ∀ a ∈ v.1, a < s.next

/-- The result of an operation on one chain of handles: old cells are untouched, and the handles are old ones or on new cells. -/
structure Grown (v : List Nat × Nat) (h : Nat → Blk R) (n : Nat) (r : (List Nat × Nat) × (Nat → Blk R) × Nat) : Prop where
  le : n ≤ r.2.2
  old : ∀ a, a < n → r.2.1 a = h a
  alive : ∀ a ∈ r.1.1, a < r.2.2
  from_old : ∀ a ∈ r.1.1, a ∈ v.1 ∨ n ≤ a

theorem map_heap_congr {h h' : Nat → Blk R} {n : Nat} (hh : ∀ a, a < n → h' a = h a) {l : List Nat} (hl : ∀ a ∈ l, a < n) :
    l.map h' = l.map h := List.map_congr_left fun a ha => hh a (hl a ha)

theorem newCells_spec : ∀ (ts : List (Blk R)) (h : Nat → Blk R) (n : Nat),
    (newCells ts h n).2.2 = n + ts.length ∧ (newCells ts h n).1 = List.range' n ts.length ∧
    (∀ a, a < n → (newCells ts h n).2.1 a = h a) ∧ (newCells ts h n).1.map (newCells ts h n).2.1 = ts := by
  intro ts
  induction ts with
  | nil => intro h n; simp [newCells]
  | cons t ts ih =>
    intro h n
    obtain ⟨h1, h2, h3, h4⟩ := ih (setCell h n t) (n + 1)
    simp only [newCells]
    refine ⟨by rw [h1, List.length_cons]; omega, by rw [h2, List.length_cons, List.range'_succ], fun a ha => ?_, ?_⟩
    · rw [h3 a (by omega), setCell, if_neg (by omega)]
    · rw [List.map_cons, h4, h3 n (by omega), setCell, if_pos rfl]

theorem chainOf_get (h : Nat → Blk R) (v : List Nat × Nat) (k : Nat) : (chainOf h v).sites[k]? = (v.1[k]?).map h := by
  simp [chainOf]

theorem orUb_map {α β : Type} (f : α → β) (o : Option α) : BT.orUb (o.map f) = (BT.orUb o).map f := by
  cases o <;> rfl

theorem nodup_set_new : ∀ {l : List Nat} (i : Nat) {a : Nat}, l.Nodup → a ∉ l → (l.set i a).Nodup
  | [], _, _, h, _ => by simpa using h
  | b :: l, 0, a, h, ha => by
    rw [List.set_cons_zero, List.nodup_cons]
    exact ⟨fun h' => ha (List.mem_cons_of_mem _ h'), (List.nodup_cons.1 h).2⟩
  | b :: l, i + 1, a, h, ha => by
    rw [List.set_cons_succ, List.nodup_cons]
    rw [List.nodup_cons] at h
    refine ⟨fun h' => ?_, nodup_set_new i h.2 fun h' => ha (List.mem_cons_of_mem _ h')⟩
    rcases List.mem_or_eq_of_mem_set h' with h' | h'
    · exact h.1 h'
    · exact ha (h' ▸ List.mem_cons_self ..)

/-- Two sites replaced by new tensors. -/
theorem two_new {v : List Nat × Nat} {h : Nat → Blk R} {n : Nat} (hv : ∀ a ∈ v.1, a < n) (i j k : Nat) (s t : Blk R) :
    chainOf (setCell (setCell h n s) (n + 1) t) ((v.1.set i n).set j (n + 1), k) = ⟨((chainOf h v).sites.set i s).set j t, k⟩ ∧
    Grown v h n (((v.1.set i n).set j (n + 1), k), setCell (setCell h n s) (n + 1) t, n + 2) ∧
    (v.1.Nodup → ((v.1.set i n).set j (n + 1)).Nodup) := by
  have hm : ∀ a ∈ (v.1.set i n).set j (n + 1), a ∈ v.1 ∨ a = n ∨ a = n + 1 := by
    intro a ha
    rcases List.mem_or_eq_of_mem_set ha with ha | ha
    · rcases List.mem_or_eq_of_mem_set ha with ha | ha
      · exact .inl ha
      · exact .inr (.inl ha)
    · exact .inr (.inr ha)
  have hold : ∀ a, a < n → setCell (setCell h n s) (n + 1) t a = h a := fun a ha => by
    rw [setCell, if_neg (by omega), setCell, if_neg (by omega)]
  refine ⟨?_, ⟨Nat.le_add_right _ _, hold, fun a ha => ?_, fun a ha => ?_⟩, fun hn => ?_⟩
  · rw [chainOf, List.map_set, List.map_set, map_heap_congr hold hv]
    simp [chainOf, setCell]
  · rcases hm a ha with ha | ha | ha
    · exact Nat.lt_of_lt_of_le (hv a ha) (Nat.le_add_right _ _)
    · show a < n + 2; omega
    · show a < n + 2; omega
  · rcases hm a ha with ha | ha | ha
    · exact .inl ha
    · exact .inr (by omega)
    · exact .inr (by omega)
  · refine nodup_set_new _ (nodup_set_new _ hn fun h' => absurd (hv _ h') (by omega)) fun h' => ?_
    rcases List.mem_or_eq_of_mem_set h' with h' | h'
    · exact absurd (hv _ h') (by omega)
    · omega

/-- An operation on one chain of handles does the same as the one on values, and spares what it does not own. -/
def Tracks (v : List Nat × Nat) (h : Nat → Blk R) (n : Nat) (r : Res ((List Nat × Nat) × (Nat → Blk R) × Nat)) (w : Res (MPS R)) :
    Prop :=
  (r.map fun r => chainOf r.2.1 r.1) = w ∧ ∀ q, r = .ok q → Grown v h n q ∧ (v.1.Nodup → q.1.1.Nodup)

theorem refLeft_spec [Semiring R] (c : R → R) (svd : Blk R → Nat → Blk R × Blk R × Blk R) (v : List Nat × Nat) (h : Nat → Blk R)
    (n : Nat) (hv : ∀ a ∈ v.1, a < n) : Tracks v h n (refLeft c svd v h n) (stepLeft c svd (chainOf h v)) := by
  unfold Tracks refLeft stepLeft
  simp only [chainOf_get, orUb_map, show (chainOf h v).oc = v.2 from rfl]
  cases BT.orUb v.1[v.2]? with
  | error e => simp [bind, Except.bind, Except.map]
  | ok a =>
    cases BT.orUb v.1[v.2 - 1]? with
    | error e => simp [bind, Except.bind, Except.map]
    | ok b =>
      simp only [bind, Except.bind, Except.map]
      cases BT.permBlk [2, 0, 1] (svd (h a) 1).2.2 with
      | error e => simp
      | ok vp =>
        cases mulLast (svd (h a) 1).1 (svd (h a) 1).2.1 with
        | error e => simp
        | ok ud =>
          cases h4 : dot1 (h b) ud 2 0 with
          | error e => simp [h4]
          | ok t =>
            obtain ⟨h1, h2, h3⟩ := two_new hv v.2 (v.2 - 1) (v.2 - 1) (conjBlk c vp) t
            simp only [h4]
            refine ⟨congrArg _ h1, fun q hq => ?_⟩
            cases hq
            exact ⟨h2, h3⟩

theorem refRight_spec [Semiring R] (c : R → R) (svd : Blk R → Nat → Blk R × Blk R × Blk R) (v : List Nat × Nat) (h : Nat → Blk R)
    (n : Nat) (hv : ∀ a ∈ v.1, a < n) : Tracks v h n (refRight c svd v h n) (stepRight c svd (chainOf h v)) := by
  unfold Tracks refRight stepRight
  simp only [chainOf_get, orUb_map, show (chainOf h v).oc = v.2 from rfl]
  cases BT.orUb v.1[v.2]? with
  | error e => simp [bind, Except.bind, Except.map]
  | ok a =>
    cases BT.orUb v.1[v.2 + 1]? with
    | error e => simp [bind, Except.bind, Except.map]
    | ok b =>
      simp only [bind, Except.bind, Except.map]
      cases mulLast (svd (h a) 2).2.2 (svd (h a) 2).2.1 with
      | error e => simp
      | ok vd =>
        cases h5 : BT.permBlk [1, 0] vd with
        | error e => simp [h5]
        | ok vt =>
          cases h4 : dot1 (conjBlk c vt) (h b) 1 0 with
          | error e => simp [h4, h5]
          | ok t =>
            obtain ⟨h1, h2, h3⟩ := two_new hv v.2 (v.2 + 1) (v.2 + 1) (svd (h a) 2).1 t
            simp only [h4, h5]
            refine ⟨congrArg _ h1, fun q hq => ?_⟩
            cases hq
            exact ⟨h2, h3⟩

theorem Grown.trans {v : List Nat × Nat} {h : Nat → Blk R} {n : Nat} {q r : (List Nat × Nat) × (Nat → Blk R) × Nat}
    (h1 : Grown v h n q) (h2 : Grown q.1 q.2.1 q.2.2 r) : Grown v h n r where
  le := Nat.le_trans h1.le h2.le
  old a ha := by rw [h2.old a (Nat.lt_of_lt_of_le ha h1.le), h1.old a ha]
  alive := h2.alive
  from_old a ha := by
    rcases h2.from_old a ha with h' | h'
    · exact h1.from_old a h'
    · exact .inr (Nat.le_trans h1.le h')

/-- The turns of a loop on values. -/
def valLoop (step : MPS R → Res (MPS R)) : Nat → MPS R → Res (MPS R)
  | 0, m => .ok m
  | k + 1, m => do valLoop step k (← step m)

theorem loopLeft_eq [Semiring R] (c : R → R) (svd : Blk R → Nat → Blk R × Blk R × Blk R) :
    ∀ k m, loopLeft c svd k m = valLoop (stepLeft c svd) k m
  | 0, _ => rfl
  | k + 1, m => by simp only [loopLeft, valLoop, loopLeft_eq c svd k]

theorem loopRight_eq [Semiring R] (c : R → R) (svd : Blk R → Nat → Blk R × Blk R × Blk R) :
    ∀ k m, loopRight c svd k m = valLoop (stepRight c svd) k m
  | 0, _ => rfl
  | k + 1, m => by simp only [loopRight, valLoop, loopRight_eq c svd k]

theorem refLoop_spec {step : (List Nat × Nat) → (Nat → Blk R) → Nat → Res ((List Nat × Nat) × (Nat → Blk R) × Nat)}
    {vstep : MPS R → Res (MPS R)}
    (hs : ∀ v h n, (∀ a ∈ v.1, a < n) → Tracks v h n (step v h n) (vstep (chainOf h v))) :
    ∀ k v h n, (∀ a ∈ v.1, a < n) → Tracks v h n (refLoop step k (v, h, n)) (valLoop vstep k (chainOf h v))
  | 0, v, h, n, hv => by
    refine ⟨rfl, fun q hq => ?_⟩
    cases hq
    exact ⟨⟨le_rfl, fun _ _ => rfl, hv, fun a ha => .inl ha⟩, id⟩
  | k + 1, v, h, n, hv => by
    obtain ⟨h1, h2⟩ := hs v h n hv
    simp only [refLoop, valLoop]
    rw [← h1]
    cases hr : step v h n with
    | error e => exact ⟨rfl, fun q hq => by cases hq⟩
    | ok r =>
      obtain ⟨h3, h4⟩ := h2 r hr
      obtain ⟨h5, h6⟩ := refLoop_spec hs k r.1 r.2.1 r.2.2 h3.alive
      refine ⟨h5, fun q hq => ?_⟩
      obtain ⟨h7, h8⟩ := h6 q hq
      exact ⟨h3.trans h7, h8 ∘ h4⟩

theorem refMoveOc_spec [Semiring R] (c : R → R) (svd : Blk R → Nat → Blk R × Blk R × Blk R) (v : List Nat × Nat) (h : Nat → Blk R)
    (n : Nat) (hv : ∀ a ∈ v.1, a < n) (i : Int) : Tracks v h n (refMoveOc c svd v h n i) (moveOc c svd (chainOf h v) i) := by
  unfold refMoveOc moveOc
  simp only [chainOf_get, orUb_map, show (chainOf h v).oc = v.2 from rfl, show (chainOf h v).sites.length = v.1.length by simp [chainOf]]
  by_cases hi : ¬ (0 ≤ i ∧ i < v.1.length)
  · rw [if_pos hi, if_pos hi]
    exact ⟨rfl, fun q hq => by cases hq⟩
  · rw [if_neg hi, if_neg hi]
    cases BT.orUb v.1[v.2]? with
    | error e => exact ⟨rfl, fun q hq => by cases hq⟩
    | ok a =>
      obtain ⟨h1, h2⟩ := refLoop_spec (refLeft_spec c svd) (v.2 - i.toNat) v h n hv
      simp only [bind, Except.bind, Except.map, loopLeft_eq, loopRight_eq]
      rw [← h1]
      cases hr : refLoop (refLeft c svd) (v.2 - i.toNat) (v, h, n) with
      | error e => exact ⟨rfl, fun q hq => by cases hq⟩
      | ok r =>
        obtain ⟨h3, h4⟩ := h2 r hr
        obtain ⟨h5, h6⟩ := refLoop_spec (refRight_spec c svd) (i.toNat - r.1.2) r.1 r.2.1 r.2.2 h3.alive
        refine ⟨h5, fun q hq => ?_⟩
        obtain ⟨h7, h8⟩ := h6 q hq
        exact ⟨h3.trans h7, h8 ∘ h4⟩

/-! ### Statements -/

theorem chains_congr {s : Refs R} (ha : Alive s) {h' : Nat → Blk R} (hh : ∀ a, a < s.next → h' a = s.heap a) :
    s.vars.map (chainOf h') = chainsOf s :=
  List.map_congr_left fun v hv => by rw [chainOf, map_heap_congr hh (ha v hv)]; rfl

theorem chainsOf_get (s : Refs R) (x : Nat) : (chainsOf s)[x]? = (s.vars[x]?).map (chainOf s.heap) := by simp [chainsOf]

theorem setCell_old (h : Nat → Blk R) (n : Nat) (t : Blk R) (a : Nat) (ha : a < n) : setCell h n t a = h a := by
  rw [setCell, if_neg (by omega)]

theorem orUb_ok {α : Type} {o : Option α} {a : α} (h : BT.orUb o = .ok a) : o = some a := by
  cases o with
  | none => cases h
  | some b => cases h; rfl

theorem mem_of_orUb {α : Type} {l : List α} {x : Nat} {a : α} (h : BT.orUb l[x]? = .ok a) : a ∈ l :=
  List.mem_of_getElem? (orUb_ok h)

theorem alive_set {s : Refs R} (ha : Alive s) {h' : Nat → Blk R} {n' x : Nat} {v' : List Nat × Nat} (hn : s.next ≤ n')
    (hv : ∀ a ∈ v'.1, a < n') : Alive ⟨s.vars.set x v', h', n'⟩ := by
  intro v hm a hav
  rcases List.mem_or_eq_of_mem_set hm with hm | rfl
  · exact Nat.lt_of_lt_of_le (ha v hm a hav) hn
  · exact hv a hav

theorem alive_push {s : Refs R} (ha : Alive s) {h' : Nat → Blk R} {n' : Nat} {v' : List Nat × Nat} (hn : s.next ≤ n')
    (hv : ∀ a ∈ v'.1, a < n') : Alive ⟨s.vars ++ [v'], h', n'⟩ := by
  intro v hm a hav
  rcases List.mem_append.1 hm with hm | hm
  · exact Nat.lt_of_lt_of_le (ha v hm a hav) hn
  · rw [List.mem_singleton] at hm
    subst hm
    exact hv a hav

theorem newCells_alive (ts : List (Blk R)) (h : Nat → Blk R) (n : Nat) :
    ∀ a ∈ (newCells ts h n).1, n ≤ a ∧ a < (newCells ts h n).2.2 := by
  obtain ⟨h1, h2, -, -⟩ := newCells_spec ts h n
  intro a ha
  rw [h2, List.mem_range'_1] at ha
  omega

/-- One statement on whole chains does the same on handles as on values. -/
theorem refChain_spec [Semiring R] (c : R → R) (svd : Blk R → Nat → Blk R × Blk R × Blk R) (s : Refs R) (ha : Alive s)
    (k : ChainCmd R) : (refChain c svd s k).map chainsOf = chainStep c svd (chainsOf s) k ∧ ∀ s', refChain c svd s k = .ok s' → Alive s' := by
  cases k with
  | build ts oc =>
    simp only [refChain, chainStep]
    cases mkMps (ts.map Blk.dims) oc with
    | error e => exact ⟨rfl, fun s' h => by cases h⟩
    | ok oc' =>
      obtain ⟨h1, -, h3, h4⟩ := newCells_spec ts s.heap s.next
      simp only [bind, Except.bind, Except.map]
      refine ⟨?_, fun s' h => ?_⟩
      · rw [chainsOf, List.map_append, chains_congr ha h3]
        simp [chainOf, h4]
      · cases h
        exact alive_push ha (by omega) fun a h => (newCells_alive _ _ _ a h).2
  | fill j t oc =>
    simp only [refChain, chainStep]
    cases mkMpsFill j t.dims oc with
    | error e => exact ⟨rfl, fun s' h => by cases h⟩
    | ok oc' =>
      simp only [bind, Except.bind, Except.map]
      refine ⟨?_, fun s' h => ?_⟩
      · rw [chainsOf, List.map_append, chains_congr ha (setCell_old _ _ _)]
        simp [chainOf, setCell]
      · cases h
        refine alive_push ha (Nat.le_succ _) fun a h => ?_
        rw [List.eq_of_mem_replicate h]
        exact Nat.lt_succ_self _
  | empty =>
    refine ⟨?_, fun s' h => ?_⟩
    · simp [refChain, chainStep, Except.map, chainsOf, chainOf]
    · cases h
      exact alive_push ha le_rfl fun a h => by cases h
  | copy y =>
    simp only [refChain, chainStep, chainsOf_get, orUb_map]
    cases hy : BT.orUb s.vars[y]? with
    | error e => exact ⟨rfl, fun s' h => by cases h⟩
    | ok m =>
      simp only [bind, Except.bind, Except.map]
      refine ⟨by simp [chainsOf], fun s' h => ?_⟩
      cases h
      exact alive_push ha le_rfl (ha m (mem_of_orUb hy))
  | take y =>
    simp only [refChain, chainStep, chainsOf_get, orUb_map]
    cases hy : BT.orUb s.vars[y]? with
    | error e => exact ⟨rfl, fun s' h => by cases h⟩
    | ok m =>
      simp only [bind, Except.bind, Except.map]
      refine ⟨by simp [chainsOf, List.map_set, chainOf], fun s' h => ?_⟩
      cases h
      refine alive_push (s := ⟨s.vars.set y ([], m.2), s.heap, s.next⟩) (alive_set ha le_rfl fun a h => by cases h) le_rfl ?_
      exact ha m (mem_of_orUb hy)
  | assign x y =>
    simp only [refChain, chainStep, chainsOf_get, orUb_map]
    cases hy : BT.orUb s.vars[y]? with
    | error e => exact ⟨rfl, fun s' h => by cases h⟩
    | ok m =>
      cases hx : BT.orUb s.vars[x]? with
      | error e => exact ⟨rfl, fun s' h => by cases h⟩
      | ok m' =>
        simp only [bind, Except.bind, Except.map]
        refine ⟨by simp [chainsOf, List.map_set], fun s' h => ?_⟩
        cases h
        exact alive_set ha le_rfl (ha m (mem_of_orUb hy))
  | assignTake x y =>
    simp only [refChain, chainStep, chainsOf_get, orUb_map]
    cases hy : BT.orUb s.vars[y]? with
    | error e => exact ⟨rfl, fun s' h => by cases h⟩
    | ok m =>
      cases hx : BT.orUb s.vars[x]? with
      | error e => exact ⟨rfl, fun s' h => by cases h⟩
      | ok m' =>
        simp only [bind, Except.bind, Except.map]
        refine ⟨by simp [chainsOf, List.map_set, chainOf], fun s' h => ?_⟩
        cases h
        refine alive_set (s := ⟨s.vars.set y ([], m.2), s.heap, s.next⟩) (alive_set ha le_rfl fun a h => by cases h) le_rfl ?_
        exact ha m (mem_of_orUb hy)
  | swap x y =>
    simp only [refChain, chainStep, chainsOf_get, orUb_map]
    cases hx : BT.orUb s.vars[x]? with
    | error e => exact ⟨rfl, fun s' h => by cases h⟩
    | ok m =>
      cases hy : BT.orUb s.vars[y]? with
      | error e => exact ⟨rfl, fun s' h => by cases h⟩
      | ok m' =>
        simp only [bind, Except.bind, Except.map]
        refine ⟨by simp [chainsOf, List.map_set], fun s' h => ?_⟩
        cases h
        exact alive_set (s := ⟨s.vars.set x m', s.heap, s.next⟩) (alive_set ha le_rfl (ha m' (mem_of_orUb hy))) le_rfl
          (ha m (mem_of_orUb hx))
  | moveOc x i =>
    simp only [refChain, chainStep, chainsOf_get, orUb_map]
    cases hx : BT.orUb s.vars[x]? with
    | error e => exact ⟨rfl, fun s' h => by cases h⟩
    | ok m =>
      obtain ⟨h1, h2⟩ := refMoveOc_spec c svd m s.heap s.next (ha m (mem_of_orUb hx)) i
      simp only [bind, Except.bind, Except.map]
      rw [← h1]
      cases hr : refMoveOc c svd m s.heap s.next i with
      | error e => exact ⟨rfl, fun s' h => by cases h⟩
      | ok r =>
        obtain ⟨h3, -⟩ := h2 r hr
        simp only [Except.map]
        refine ⟨?_, fun s' h => ?_⟩
        · rw [chainsOf, List.map_set, chains_congr ha h3.old]
        · cases h
          exact alive_set ha h3.le h3.alive
  | pushBack x t =>
    simp only [refChain, chainStep, chainsOf_get, orUb_map]
    cases hx : BT.orUb s.vars[x]? with
    | error e => exact ⟨rfl, fun s' h => by cases h⟩
    | ok m =>
      have hm := ha m (mem_of_orUb hx)
      simp only [bind, Except.bind, Except.map]
      refine ⟨?_, fun s' h => ?_⟩
      · rw [chainsOf, List.map_set, chains_congr ha (setCell_old _ _ _)]
        simp only [chainOf, List.map_append, map_heap_congr (setCell_old s.heap s.next t) hm]
        simp [setCell]
      · cases h
        refine alive_set ha (Nat.le_succ _) fun a h => ?_
        rcases List.mem_append.1 h with h | h
        · exact Nat.lt_succ_of_lt (hm a h)
        · rw [List.mem_singleton.1 h]; exact Nat.lt_succ_self _
  | popBack x =>
    simp only [refChain, chainStep, chainsOf_get, orUb_map]
    cases hx : BT.orUb s.vars[x]? with
    | error e => exact ⟨rfl, fun s' h => by cases h⟩
    | ok m =>
      have hm := ha m (mem_of_orUb hx)
      simp only [bind, Except.bind, Except.map, chainOf, List.length_map]
      by_cases h0 : m.1.length = 0
      · rw [if_pos h0, if_pos h0]
        exact ⟨rfl, fun s' h => by cases h⟩
      · rw [if_neg h0, if_neg h0]
        refine ⟨by simp [chainsOf, List.map_set, chainOf, List.map_dropLast], fun s' h => ?_⟩
        cases h
        exact alive_set ha le_rfl fun a h => hm a (List.mem_of_mem_dropLast h)
  | erase x p =>
    simp only [refChain, chainStep, chainsOf_get, orUb_map]
    cases hx : BT.orUb s.vars[x]? with
    | error e => exact ⟨rfl, fun s' h => by cases h⟩
    | ok m =>
      have hm := ha m (mem_of_orUb hx)
      simp only [bind, Except.bind, Except.map, chainOf, List.length_map]
      by_cases h0 : m.1.length ≤ p
      · rw [if_pos h0, if_pos h0]
        exact ⟨rfl, fun s' h => by cases h⟩
      · rw [if_neg h0, if_neg h0]
        refine ⟨by simp [chainsOf, List.map_set, chainOf, List.eraseIdx_map], fun s' h => ?_⟩
        cases h
        exact alive_set ha le_rfl fun a h => hm a (List.mem_of_mem_eraseIdx h)
  | insert x p t =>
    simp only [refChain, chainStep, chainsOf_get, orUb_map]
    cases hx : BT.orUb s.vars[x]? with
    | error e => exact ⟨rfl, fun s' h => by cases h⟩
    | ok m =>
      have hm := ha m (mem_of_orUb hx)
      simp only [bind, Except.bind, Except.map]
      rw [show (chainOf s.heap m).sites.length = m.1.length by simp [chainOf]]
      by_cases h0 : m.1.length < p
      · rw [if_pos h0, if_pos h0]
        exact ⟨rfl, fun s' h => by cases h⟩
      · rw [if_neg h0, if_neg h0]
        refine ⟨?_, fun s' h => ?_⟩
        · simp only
          rw [chainsOf, List.map_set, chains_congr ha (setCell_old _ _ _)]
          simp only [chainOf, List.map_insertIdx, map_heap_congr (setCell_old s.heap s.next t) hm]
          simp [setCell]
        · cases h
          refine alive_set ha (Nat.le_succ _) fun a h => ?_
          rcases List.eq_or_mem_of_mem_insertIdx h with h | h
          · rw [h]; exact Nat.lt_succ_self _
          · exact Nat.lt_succ_of_lt (hm a h)
  | clear x =>
    simp only [refChain, chainStep, chainsOf_get, orUb_map]
    cases hx : BT.orUb s.vars[x]? with
    | error e => exact ⟨rfl, fun s' h => by cases h⟩
    | ok m =>
      simp only [bind, Except.bind, Except.map]
      refine ⟨by simp [chainsOf, List.map_set, chainOf], fun s' h => ?_⟩
      cases h
      exact alive_set ha le_rfl fun a h => by cases h

theorem convCells_spec (fits : Blk R → Bool) (conv : Blk R → Blk R) : ∀ (l : List Nat) (h : Nat → Blk R) (n o : Nat),
    (∀ a ∈ l, a < n) →
    chainOf (convCells fits conv l h n).2.1 ((convCells fits conv l h n).1, o) =
      ⟨(l.map h).map fun t => if fits t then t else conv t, o⟩ ∧
    Grown (l, o) h n (((convCells fits conv l h n).1, o), (convCells fits conv l h n).2) ∧
    (l.Nodup → (convCells fits conv l h n).1.Nodup)
  | [], h, n, o, _ => ⟨rfl, ⟨le_rfl, fun _ _ => rfl, fun a ha => (by cases ha), fun a ha => (by cases ha)⟩, id⟩
  | a :: l, h, n, o, hl => by
    have han := hl a (List.mem_cons_self ..)
    have hl' : ∀ b ∈ l, b < n := fun b hb => hl b (List.mem_cons_of_mem _ hb)
    by_cases hf : fits (h a) = true
    · obtain ⟨h1, h2, h3⟩ := convCells_spec fits conv l h n o hl'
      have e : convCells fits conv (a :: l) h n = (a :: (convCells fits conv l h n).1, (convCells fits conv l h n).2) := by
        simp [convCells, hf]
      rw [e]
      simp only [chainOf, MPS.mk.injEq, and_true] at h1
      refine ⟨?_, ⟨h2.le, h2.old, fun b hb => ?_, fun b hb => ?_⟩, fun hn => ?_⟩
      · have h4 : (convCells fits conv l h n).2.1 a = h a := h2.old a han
        simp only [chainOf, List.map_cons, h1, h4, hf, if_true]
      · rcases List.mem_cons.1 hb with rfl | hb
        · exact Nat.lt_of_lt_of_le han h2.le
        · exact h2.alive b hb
      · rcases List.mem_cons.1 hb with rfl | hb
        · exact .inl (List.mem_cons_self ..)
        · exact (h2.from_old b hb).imp_left (List.mem_cons_of_mem _)
      · rw [List.nodup_cons] at hn ⊢
        refine ⟨fun h' => ?_, h3 hn.2⟩
        rcases h2.from_old a h' with h' | h'
        · exact hn.1 h'
        · omega
    · obtain ⟨h1, h2, h3⟩ := convCells_spec fits conv l (setCell h n (conv (h a))) (n + 1) o fun b hb => Nat.lt_succ_of_lt (hl' b hb)
      have e : convCells fits conv (a :: l) h n = (n :: (convCells fits conv l (setCell h n (conv (h a))) (n + 1)).1,
          (convCells fits conv l (setCell h n (conv (h a))) (n + 1)).2) := by
        simp [convCells, hf]
      rw [e]
      simp only [chainOf, MPS.mk.injEq, and_true] at h1
      refine ⟨?_, ⟨Nat.le_of_succ_le h2.le, fun b hb => ?_, fun b hb => ?_, fun b hb => ?_⟩, fun hn => ?_⟩
      · simp only [chainOf, List.map_cons, h1, map_heap_congr (setCell_old h n (conv (h a))) hl']
        rw [show (convCells fits conv l (setCell h n (conv (h a))) (n + 1)).2.1 n = conv (h a) from
          (h2.old n (Nat.lt_succ_self n)).trans (by simp [setCell]), if_neg hf]
      · rw [show (convCells fits conv l (setCell h n (conv (h a))) (n + 1)).2.1 b = setCell h n (conv (h a)) b from
          h2.old b (Nat.lt_succ_of_lt hb), setCell_old h n _ b hb]
      · rcases List.mem_cons.1 hb with rfl | hb
        · exact Nat.lt_of_lt_of_le (Nat.lt_succ_self _) h2.le
        · exact h2.alive b hb
      · rcases List.mem_cons.1 hb with rfl | hb
        · exact .inr le_rfl
        · rcases h2.from_old b hb with h' | h'
          · exact .inl (List.mem_cons_of_mem _ h')
          · exact .inr (by omega)
      · rw [List.nodup_cons] at hn ⊢
        refine ⟨fun h' => ?_, h3 hn.2⟩
        rcases h2.from_old n h' with h' | h'
        · exact absurd (hl' n h') (by omega)
        · omega

/-- A tensor that is as wanted keeps its handle. -/
theorem convCells_keep (fits : Blk R → Bool) (conv : Blk R → Blk R) : ∀ (l : List Nat) (h : Nat → Blk R) (n p a : Nat),
    (∀ a ∈ l, a < n) → l[p]? = some a → fits (h a) = true → (convCells fits conv l h n).1[p]? = some a
  | b :: l, h, n, 0, a, hl, hp, hf => by
    obtain rfl : b = a := by simpa using hp
    simp [convCells, hf]
  | b :: l, h, n, p + 1, a, hl, hp, hf => by
    have hp : l[p]? = some a := by simpa using hp
    have hl' : ∀ b ∈ l, b < n := fun b hb => hl b (List.mem_cons_of_mem _ hb)
    simp only [convCells]
    split
    · exact convCells_keep fits conv l h n p a hl' hp hf
    · refine convCells_keep fits conv l _ (n + 1) p a (fun b hb => Nat.lt_succ_of_lt (hl' b hb)) hp ?_
      rw [setCell_old _ _ _ _ (hl' a (List.mem_of_getElem? hp))]
      exact hf

/-- No tensor has two handles. -/
structure Sole (s : Refs R) : Prop where
  within : ∀ v ∈ s.vars, v.1.Nodup
  across : ∀ (x y : Nat) (v w : List Nat × Nat), x ≠ y → s.vars[x]? = some v → s.vars[y]? = some w → ∀ a ∈ v.1, a ∉ w.1

theorem getElem?_set_cases {α : Type} {l : List α} {x y : Nat} {a b : α} (h : (l.set x a)[y]? = some b) :
    (y = x ∧ b = a) ∨ (y ≠ x ∧ l[y]? = some b) := by
  by_cases hxy : x = y
  · subst hxy
    refine .inl ⟨rfl, ?_⟩
    have := (List.getElem?_eq_some_iff.1 h).1
    rw [List.getElem?_set_self (by simpa using this)] at h
    exact (Option.some.inj h).symm
  · rw [List.getElem?_set_ne hxy] at h
    exact .inr ⟨Ne.symm hxy, h⟩

theorem getElem?_push_cases {α : Type} {l : List α} {y : Nat} {a b : α} (h : (l ++ [a])[y]? = some b) :
    (y = l.length ∧ b = a) ∨ l[y]? = some b := by
  rw [List.getElem?_append] at h
  split at h
  · exact .inr h
  · have := (List.getElem?_eq_some_iff.1 h).1
    have hy : y = l.length := by simp at this; omega
    subst hy
    simp at h
    exact .inl ⟨rfl, h.symm⟩

/-- One variable gets handles of its own or new ones. -/
theorem sole_set {s : Refs R} (ha : Alive s) (hs : Sole s) {h' : Nat → Blk R} {n' x : Nat} {v v' : List Nat × Nat}
    (hx : s.vars[x]? = some v) (hn : v'.1.Nodup) (hv : ∀ a ∈ v'.1, a ∈ v.1 ∨ s.next ≤ a) :
    Sole ⟨s.vars.set x v', h', n'⟩ := by
  have key : ∀ y w, y ≠ x → s.vars[y]? = some w → ∀ a ∈ v'.1, a ∉ w.1 := by
    intro y w hy hw a hav haw
    rcases hv a hav with h | h
    · exact hs.across x y v w (Ne.symm hy) hx hw a h haw
    · exact absurd (ha w (List.mem_of_getElem? hw) a haw) (by omega)
  refine ⟨fun w hw => ?_, fun y z w u hne hy hz a haw hau => ?_⟩
  · rcases List.mem_or_eq_of_mem_set hw with hw | rfl
    · exact hs.within w hw
    · exact hn
  · rcases getElem?_set_cases hy with ⟨rfl, rfl⟩ | ⟨hy1, hy2⟩
    · rcases getElem?_set_cases hz with ⟨rfl, rfl⟩ | ⟨hz1, hz2⟩
      · exact hne rfl
      · exact key z u hz1 hz2 a haw hau
    · rcases getElem?_set_cases hz with ⟨rfl, rfl⟩ | ⟨hz1, hz2⟩
      · exact key y w hy1 hy2 a hau haw
      · exact hs.across y z w u hne hy2 hz2 a haw hau

/-- A new variable with handles that no variable has. -/
theorem sole_push {s : Refs R} (hs : Sole s) {h' : Nat → Blk R} {n' : Nat} {v' : List Nat × Nat}
    (hn : v'.1.Nodup) (hv : ∀ w ∈ s.vars, ∀ a ∈ v'.1, a ∉ w.1) : Sole ⟨s.vars ++ [v'], h', n'⟩ := by
  refine ⟨fun w hw => ?_, fun y z w u hne hy hz a haw hau => ?_⟩
  · rcases List.mem_append.1 hw with hw | hw
    · exact hs.within w hw
    · rw [List.mem_singleton.1 hw]; exact hn
  · rcases getElem?_push_cases hy with ⟨h1, h2⟩ | hy'
    · rcases getElem?_push_cases hz with ⟨h3, h4⟩ | hz'
      · exact hne (h1.trans h3.symm)
      · exact hv u (List.mem_of_getElem? hz') a (h2 ▸ haw) hau
    · rcases getElem?_push_cases hz with ⟨h3, h4⟩ | hz'
      · exact hv w (List.mem_of_getElem? hy') a (h4 ▸ hau) haw
      · exact hs.across y z w u hne hy' hz' a haw hau

/-- A variable that lost its handles shares nothing with a variable that gets them. -/
theorem sole_taken {s : Refs R} (hs : Sole s) {y o : Nat} {m : List Nat × Nat} (hy : s.vars[y]? = some m) :
    ∀ w ∈ s.vars.set y ([], o), ∀ a ∈ m.1, a ∉ w.1 := by
  intro w hw a ham haw
  obtain ⟨z, hz⟩ := List.mem_iff_getElem?.1 hw
  rcases getElem?_set_cases hz with ⟨rfl, rfl⟩ | ⟨hz1, hz2⟩
  · cases haw
  · exact hs.across y z m w (Ne.symm hz1) hy hz2 a ham haw

theorem sole_clear {s : Refs R} (ha : Alive s) (hs : Sole s) {y o : Nat} {m : List Nat × Nat} (hy : s.vars[y]? = some m) :
    Sole ⟨s.vars.set y ([], o), s.heap, s.next⟩ := sole_set ha hs hy List.nodup_nil fun a h => by cases h

/-- Statements that make no second handle keep it so. -/
theorem refStep_sole [Semiring R] (c : R → R) (svd : Blk R → Nat → Blk R × Blk R × Blk R) (s s' : Refs R) (ha : Alive s)
    (hs : Sole s) (k : SiteCmd R) (hk : k.NoShare) (h : refStep c svd s k = .ok s') : Sole s' := by
  cases k with
  | site x p y q => exact hk.elim
  | edit x p g =>
    simp only [refStep, bind, Except.bind] at h
    cases hx : BT.orUb s.vars[x]? with
    | error e => rw [hx] at h; cases h
    | ok m =>
      rw [hx] at h
      simp only at h
      cases hp : BT.orUb m.1[p]? with
      | error e => rw [hp] at h; cases h
      | ok a =>
        rw [hp] at h
        cases h
        exact ⟨hs.within, hs.across⟩
  | toNew y fits conv => exact hk.elim
  | toSelf x fits conv =>
    simp only [refStep, bind, Except.bind] at h
    cases hx : BT.orUb s.vars[x]? with
    | error e => rw [hx] at h; cases h
    | ok m =>
      rw [hx] at h
      cases h
      have hm := mem_of_orUb hx
      obtain ⟨-, h2, h3⟩ := convCells_spec fits conv m.1 s.heap s.next m.2 (ha m hm)
      exact sole_set ha hs (orUb_ok hx) (h3 (hs.within m hm)) h2.from_old
  | chain k =>
    simp only [refStep] at h
    cases k with
    | build ts oc =>
      simp only [refChain, bind, Except.bind] at h
      cases hm : mkMps (ts.map Blk.dims) oc with
      | error e => rw [hm] at h; cases h
      | ok oc' =>
        rw [hm] at h
        cases h
        refine sole_push hs ?_ fun w hw a h1 h2 => ?_
        · rw [(newCells_spec ts s.heap s.next).2.1]; exact List.nodup_range'
        · exact absurd (ha w hw a h2) (by have := (newCells_alive _ _ _ a h1).1; omega)
    | fill j t oc =>
      simp only [refChain, bind, Except.bind] at h
      cases hm : mkMpsFill j t.dims oc with
      | error e => rw [hm] at h; cases h
      | ok oc' =>
        rw [hm] at h
        cases h
        refine sole_push hs ?_ fun w hw a h1 h2 => ?_
        · have hj : j ≤ 1 := hk
          obtain rfl | rfl : j = 0 ∨ j = 1 := by omega
          all_goals simp
        · rw [List.eq_of_mem_replicate h1] at h2
          exact absurd (ha w hw _ h2) (by omega)
    | empty =>
      cases h
      exact sole_push hs List.nodup_nil fun w hw a h1 => by cases h1
    | copy y => exact hk.elim
    | assign x y => exact hk.elim
    | take y =>
      simp only [refChain, bind, Except.bind] at h
      cases hy : BT.orUb s.vars[y]? with
      | error e => rw [hy] at h; cases h
      | ok m =>
        rw [hy] at h
        cases h
        exact sole_push (sole_clear ha hs (orUb_ok hy)) (hs.within m (mem_of_orUb hy)) (sole_taken hs (orUb_ok hy))
    | assignTake x y =>
      simp only [refChain, bind, Except.bind] at h
      cases hy : BT.orUb s.vars[y]? with
      | error e => rw [hy] at h; cases h
      | ok m =>
        rw [hy] at h
        simp only at h
        cases hx : BT.orUb s.vars[x]? with
        | error e => rw [hx] at h; cases h
        | ok m' =>
          rw [hx] at h
          cases h
          have h1 := sole_clear (o := m.2) ha hs (orUb_ok hy)
          have h2 := sole_taken (o := m.2) hs (orUb_ok hy)
          refine ⟨fun w hw => ?_, fun z u w w' hne hz hu a haw haw' => ?_⟩
          · rcases List.mem_or_eq_of_mem_set hw with hw | rfl
            · exact h1.within w hw
            · exact hs.within _ (mem_of_orUb hy)
          · rcases getElem?_set_cases hz with ⟨rfl, rfl⟩ | ⟨hz1, hz2⟩
            · rcases getElem?_set_cases hu with ⟨rfl, rfl⟩ | ⟨hu1, hu2⟩
              · exact hne rfl
              · exact h2 w' (List.mem_of_getElem? hu2) a haw haw'
            · rcases getElem?_set_cases hu with ⟨rfl, rfl⟩ | ⟨hu1, hu2⟩
              · exact h2 w (List.mem_of_getElem? hz2) a haw' haw
              · exact h1.across z u w w' hne hz2 hu2 a haw haw'
    | swap x y =>
      simp only [refChain, bind, Except.bind] at h
      cases hx : BT.orUb s.vars[x]? with
      | error e => rw [hx] at h; cases h
      | ok m =>
        rw [hx] at h
        simp only at h
        cases hy : BT.orUb s.vars[y]? with
        | error e => rw [hy] at h; cases h
        | ok m' =>
          rw [hy] at h
          cases h
          have ex := orUb_ok hx
          have ey := orUb_ok hy
          -- every variable holds what one variable held, and different variables hold what different ones held
          have key : ∀ z w, ((s.vars.set x m').set y m)[z]? = some w →
              s.vars[Equiv.swap x y z]? = some w := by
            intro z w hz
            rcases getElem?_set_cases hz with ⟨rfl, rfl⟩ | ⟨hz1, hz2⟩
            · rw [Equiv.swap_apply_right]; exact ex
            · rcases getElem?_set_cases hz2 with ⟨rfl, rfl⟩ | ⟨hz3, hz4⟩
              · rw [Equiv.swap_apply_left]; exact ey
              · rw [Equiv.swap_apply_of_ne_of_ne hz3 hz1]; exact hz4
          refine ⟨fun w hw => ?_, fun z u w w' hne hz hu => ?_⟩
          · obtain ⟨z, hz⟩ := List.mem_iff_getElem?.1 hw
            exact hs.within w (List.mem_of_getElem? (key z w hz))
          · exact hs.across _ _ w w' (fun h => hne ((Equiv.swap x y).injective h)) (key z w hz) (key u w' hu)
    | moveOc x i =>
      simp only [refChain, bind, Except.bind] at h
      cases hx : BT.orUb s.vars[x]? with
      | error e => rw [hx] at h; cases h
      | ok m =>
        rw [hx] at h
        simp only at h
        cases hr : refMoveOc c svd m s.heap s.next i with
        | error e => rw [hr] at h; cases h
        | ok r =>
          rw [hr] at h
          cases h
          obtain ⟨h3, h4⟩ := (refMoveOc_spec c svd m s.heap s.next (ha m (mem_of_orUb hx)) i).2 r hr
          exact sole_set ha hs (orUb_ok hx) (h4 (hs.within m (mem_of_orUb hx))) h3.from_old
    | pushBack x t =>
      simp only [refChain, bind, Except.bind] at h
      cases hx : BT.orUb s.vars[x]? with
      | error e => rw [hx] at h; cases h
      | ok m =>
        rw [hx] at h
        cases h
        refine sole_set ha hs (orUb_ok hx) ?_ fun a h => ?_
        · refine List.Nodup.append (hs.within m (mem_of_orUb hx)) (List.nodup_singleton _) fun a h1 h2 => ?_
          rw [List.mem_singleton.1 h2] at h1
          exact absurd (ha m (mem_of_orUb hx) _ h1) (by omega)
        · rcases List.mem_append.1 h with h | h
          · exact .inl h
          · exact .inr (List.mem_singleton.1 h).ge
    | popBack x =>
      simp only [refChain, bind, Except.bind] at h
      cases hx : BT.orUb s.vars[x]? with
      | error e => rw [hx] at h; cases h
      | ok m =>
        rw [hx] at h
        simp only at h
        split at h
        · cases h
        · cases h
          exact sole_set ha hs (orUb_ok hx) ((hs.within m (mem_of_orUb hx)).sublist (List.dropLast_sublist _))
            fun a h => .inl (List.mem_of_mem_dropLast h)
    | erase x p =>
      simp only [refChain, bind, Except.bind] at h
      cases hx : BT.orUb s.vars[x]? with
      | error e => rw [hx] at h; cases h
      | ok m =>
        rw [hx] at h
        simp only at h
        split at h
        · cases h
        · cases h
          exact sole_set ha hs (orUb_ok hx) ((hs.within m (mem_of_orUb hx)).sublist (List.eraseIdx_sublist ..))
            fun a h => .inl (List.mem_of_mem_eraseIdx h)
    | insert x p t =>
      simp only [refChain, bind, Except.bind] at h
      cases hx : BT.orUb s.vars[x]? with
      | error e => rw [hx] at h; cases h
      | ok m =>
        rw [hx] at h
        simp only at h
        split at h
        · cases h
        · next hp =>
          cases h
          refine sole_set ha hs (orUb_ok hx) ?_ fun a h => ?_
          · rw [(List.perm_insertIdx _ _ (by omega)).nodup_iff, List.nodup_cons]
            exact ⟨fun h => absurd (ha m (mem_of_orUb hx) _ h) (by omega), hs.within m (mem_of_orUb hx)⟩
          · rcases List.eq_or_mem_of_mem_insertIdx h with h | h
            · exact .inr h.ge
            · exact .inl h
    | clear x =>
      simp only [refChain, bind, Except.bind] at h
      cases hx : BT.orUb s.vars[x]? with
      | error e => rw [hx] at h; cases h
      | ok m =>
        rw [hx] at h
        cases h
        exact sole_clear ha hs (orUb_ok hx)

/-- The memory after an operation in place on one site. -/
def editHeap (s : Refs R) (a : Nat) (g : Blk R → List Nat → R) : Nat → Blk R :=
  setCell s.heap a ⟨(s.heap a).dims, g (s.heap a)⟩

theorem refEdit_eq [Semiring R] (c : R → R) (svd : Blk R → Nat → Blk R × Blk R × Blk R) (s : Refs R) (x p : Nat)
    (g : Blk R → List Nat → R) {m : List Nat × Nat} {a : Nat} (hx : s.vars[x]? = some m) (hp : m.1[p]? = some a) :
    refStep c svd s (.edit x p g) = .ok ⟨s.vars, editHeap s a g, s.next⟩ := by
  simp [refStep, hx, hp, BT.orUb, bind, Except.bind, editHeap]

/-- Any statement keeps handles on tensors that exist, and does the same on handles as on values unless it works in place on a
shared tensor. -/
theorem refStep_spec [Semiring R] (c : R → R) (svd : Blk R → Nat → Blk R × Blk R × Blk R) (s : Refs R) (ha : Alive s)
    (k : SiteCmd R) : (∀ s', refStep c svd s k = .ok s' → Alive s') ∧
      ((k.NoEdit ∨ Sole s) → (refStep c svd s k).map chainsOf = ownStep c svd (chainsOf s) k) := by
  cases k with
  | chain k => exact ⟨(refChain_spec c svd s ha k).2, fun _ => (refChain_spec c svd s ha k).1⟩
  | site x p y q =>
    simp only [refStep, ownStep, chainsOf_get, orUb_map]
    cases hy : BT.orUb s.vars[y]? with
    | error e => exact ⟨fun s' h => (by cases h), fun _ => rfl⟩
    | ok m =>
      simp only [bind, Except.bind, Except.map, chainOf_get, orUb_map]
      cases hq : BT.orUb m.1[q]? with
      | error e => exact ⟨fun s' h => (by cases h), fun _ => rfl⟩
      | ok a =>
        simp only [Except.map]
        cases hx : BT.orUb s.vars[x]? with
        | error e => exact ⟨fun s' h => (by cases h), fun _ => rfl⟩
        | ok m' =>
          simp only [chainOf_get, orUb_map]
          cases hp : BT.orUb m'.1[p]? with
          | error e => exact ⟨fun s' h => (by cases h), fun _ => rfl⟩
          | ok b =>
            refine ⟨fun s' h => ?_, fun _ => by simp [Except.map, chainsOf, List.map_set, chainOf]⟩
            cases h
            refine alive_set ha le_rfl fun a' h => ?_
            rcases List.mem_or_eq_of_mem_set h with h | rfl
            · exact ha m' (mem_of_orUb hx) a' h
            · exact ha m (mem_of_orUb hy) a' (mem_of_orUb hq)
  | toNew y fits conv =>
    simp only [refStep, ownStep, chainsOf_get, orUb_map]
    cases hy : BT.orUb s.vars[y]? with
    | error e => exact ⟨fun s' h => (by cases h), fun _ => rfl⟩
    | ok m =>
      obtain ⟨h1, h2, -⟩ := convCells_spec fits conv m.1 s.heap s.next m.2 (ha m (mem_of_orUb hy))
      simp only [bind, Except.bind, Except.map]
      refine ⟨fun s' h => ?_, fun _ => ?_⟩
      · cases h
        exact alive_push ha h2.le h2.alive
      · rw [chainsOf, List.map_append, chains_congr ha h2.old]
        simp only [List.map_cons, List.map_nil, h1]
        rfl
  | toSelf x fits conv =>
    simp only [refStep, ownStep, chainsOf_get, orUb_map]
    cases hx : BT.orUb s.vars[x]? with
    | error e => exact ⟨fun s' h => (by cases h), fun _ => rfl⟩
    | ok m =>
      obtain ⟨h1, h2, -⟩ := convCells_spec fits conv m.1 s.heap s.next m.2 (ha m (mem_of_orUb hx))
      simp only [bind, Except.bind, Except.map]
      refine ⟨fun s' h => ?_, fun _ => ?_⟩
      · cases h
        exact alive_set ha h2.le h2.alive
      · rw [chainsOf, List.map_set, chains_congr ha h2.old]
        simp only [h1]
        rfl
  | edit x p g =>
    cases hx : s.vars[x]? with
    | none =>
      have e : BT.orUb s.vars[x]? = Res.ub := by rw [hx]; rfl
      simp only [refStep, ownStep, chainsOf_get, orUb_map, e]
      exact ⟨fun s' h => (by cases h), fun _ => rfl⟩
    | some m =>
      cases hp : m.1[p]? with
      | none =>
        have e : BT.orUb s.vars[x]? = .ok m := by rw [hx]; rfl
        have e' : BT.orUb m.1[p]? = Res.ub := by rw [hp]; rfl
        simp only [refStep, ownStep, chainsOf_get, orUb_map, e, bind, Except.bind, Except.map, chainOf_get, e']
        exact ⟨fun s' h => (by cases h), fun _ => rfl⟩
      | some a =>
        rw [refEdit_eq c svd s x p g hx hp]
        refine ⟨fun s' h => by cases h; exact ha, fun hs => ?_⟩
        have hs := hs.resolve_left id
        simp only [ownStep, chainsOf_get, chainOf_get, hx, hp, BT.orUb, bind, Except.bind, Except.map, Option.map_some]
        congr 1
        refine List.ext_getElem? fun y => ?_
        simp only [chainsOf, List.getElem?_map]
        by_cases hxy : x = y
        · subst hxy
          have hlt := (List.getElem?_eq_some_iff.1 hx).1
          rw [List.getElem?_set_self (by simpa using hlt), hx]
          simp only [Option.map_some, Option.some.injEq, chainOf, MPS.mk.injEq, and_true]
          refine List.ext_getElem? fun q => ?_
          by_cases hpq : p = q
          · subst hpq
            have hlt := (List.getElem?_eq_some_iff.1 hp).1
            rw [List.getElem?_set_self (by simpa using hlt), List.getElem?_map, hp]
            simp [editHeap, setCell]
          · rw [List.getElem?_set_ne hpq]
            simp only [List.getElem?_map]
            cases hq : m.1[q]? with
            | none => rfl
            | some b =>
              have hb : b ≠ a := by
                rintro rfl
                exact hpq ((List.getElem?_inj (List.getElem?_eq_some_iff.1 hp).1 (hs.within m (List.mem_of_getElem? hx))).1
                  (hp.trans hq.symm))
              simp [editHeap, setCell, hb]
        · rw [List.getElem?_set_ne hxy, List.getElem?_map]
          cases hy : s.vars[y]? with
          | none => rfl
          | some w =>
            simp only [Option.map_some, Option.some.injEq, chainOf, MPS.mk.injEq, and_true]
            refine List.map_congr_left fun b hb => ?_
            have hba : b ≠ a := by
              rintro rfl
              exact hs.across x y m w hxy hx hy b (List.mem_of_getElem? hp) hb
            simp [editHeap, setCell, hba]

theorem refRun_alive [Semiring R] (c : R → R) (svd : Blk R → Nat → Blk R × Blk R × Blk R) :
    ∀ (p : List (SiteCmd R)) (s s' : Refs R), Alive s → refRun c svd p s = .ok s' → Alive s'
  | [], s, s', ha, h => by cases h; exact ha
  | k :: p, s, s', ha, h => by
    simp only [refRun, bind, Except.bind] at h
    cases hk : refStep c svd s k with
    | error e => rw [hk] at h; cases h
    | ok s1 =>
      rw [hk] at h
      exact refRun_alive c svd p s1 s' ((refStep_spec c svd s ha k).1 s1 hk) h

/-- A program, statement by statement. -/
theorem refRun_spec [Semiring R] (c : R → R) (svd : Blk R → Nat → Blk R × Blk R × Blk R) :
    ∀ (p : List (SiteCmd R)) (s : Refs R), Alive s → ((∀ k ∈ p, k.NoEdit) ∨ (Sole s ∧ ∀ k ∈ p, k.NoShare)) →
      (refRun c svd p s).map chainsOf = ownRun c svd p (chainsOf s)
  | [], s, _, _ => rfl
  | k :: p, s, ha, hp => by
    obtain ⟨h1, h2⟩ := refStep_spec c svd s ha k
    have h2 := h2 (hp.imp (fun h => h k (List.mem_cons_self ..)) fun h => h.1)
    simp only [refRun, ownRun]
    rw [← h2]
    cases hk : refStep c svd s k with
    | error e => rfl
    | ok s1 =>
      refine refRun_spec c svd p s1 (h1 s1 hk) (hp.imp (fun h k' hk' => h k' (List.mem_cons_of_mem _ hk')) fun h => ⟨?_, ?_⟩)
      · exact refStep_sole c svd s s1 ha h.1 k (h.2 k (List.mem_cons_self ..)) hk
      · exact fun k' hk' => h.2 k' (List.mem_cons_of_mem _ hk')

end MP
end QuantiT
