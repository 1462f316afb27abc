import Verif.Lemmas.Alias
/-
The statements of a program over block tensors (Model/Alias.lean) against their values (Spec/Alias.lean).
-/
namespace QuantiT
namespace BT
open Spec FM
variable {G R : Type}

/-- Every variable lists its blocks in order, at addresses that exist, and no address is listed at two indices. -/
def Mach.Inv (s : Mach G R) : Prop := ∃ key, ∀ t ∈ s.vars, Placed key s.next t.blocks

theorem deref_congr {h h' : Nat → Blk R} {key : Nat → List Nat} {n : Nat} {t : Handle G} (ht : Placed key n t.blocks)
    (hh : ∀ x < n, h' x = h x) : deref h' t = deref h t := by
  unfold deref
  congr 1
  exact fetch_congr fun e he => hh _ (ht.cell e he).1

theorem map_deref_congr {h h' : Nat → Blk R} {key : Nat → List Nat} {n : Nat} {ts : List (Handle G)}
    (ht : ∀ t ∈ ts, Placed key n t.blocks) (hh : ∀ x < n, h' x = h x) : ts.map (deref h') = ts.map (deref h) :=
  List.map_congr_left fun t h1 => deref_congr (ht t h1) hh

theorem getElem?_values (s : Mach G R) (i : Nat) : s.values[i]? = s.vars[i]?.map (deref s.heap) := by
  unfold Mach.values; rw [List.getElem?_map]

theorem inv_push {s : Mach G R} {key key' : Nat → List Nat} {h : Nat → Blk R} {n : Nat} {t : Handle G}
    (hs : ∀ t ∈ s.vars, Placed key s.next t.blocks) (hn : s.next ≤ n) (hk : ∀ x < s.next, key' x = key x)
    (ht : Placed key' n t.blocks) : Mach.Inv (⟨s.vars ++ [t], h, n⟩ : Mach G R) :=
  ⟨key', fun u hu => by
    rcases List.mem_append.mp hu with hu | hu
    · exact (hs u hu).mono hn hk
    · rw [List.mem_singleton.mp hu]; exact ht⟩

theorem inv_set {vars : List (Handle G)} {key : Nat → List Nat} {h : Nat → Blk R} {n i : Nat} {t : Handle G}
    (hs : ∀ t ∈ vars, Placed key n t.blocks) (ht : Placed key n t.blocks) :
    Mach.Inv (⟨vars.set i t, h, n⟩ : Mach G R) :=
  ⟨key, fun u hu => by
    rcases List.mem_or_eq_of_mem_set hu with hu | hu
    · exact hs u hu
    · rw [hu]; exact ht⟩

/-- The value of a sum, from the merge. -/
theorem add_of_merge [DecidableEq G] [Semiring R] {a b : BT G R} {alpha : R} {m : FM (List Nat) (Blk R)}
    (hc : addCheck a b = .ok ()) (hm : FM.mergeInsert (addBlk alpha) (scaleBlk alpha) a.blocks b.blocks = .ok m) :
    add a b alpha = .ok { a with blocks := m } := by
  simp only [add, hc, hm, bind, Except.bind]

theorem add_error [DecidableEq G] [Semiring R] {a b : BT G R} {alpha : R} {e : Fault} (hc : addCheck a b = .error e) :
    add a b alpha = .error e := by
  simp only [add, hc, bind, Except.bind]

theorem addCheck_cases [DecidableEq G] (a b : BT G R) : addCheck a b = .ok () ∨ ∃ e, addCheck a b = .error e := by
  cases h : addCheck a b with
  | error e => exact Or.inr ⟨e, rfl⟩
  | ok u => exact Or.inl rfl

theorem cellAfter_false [Semiring R] {alpha : R} {key : Nat → List Nat} {own src : FM (List Nat) Nat} {h : Nat → Blk R} {x : Nat}
    (hx : lookup own (key x) ≠ some x) : cellAfter alpha (fun _ => false) key own src h x = h x := by
  unfold cellAfter
  rw [if_neg hx, if_neg (by simp)]

/-- `add(const btensor&)`. -/
theorem addNew_spec [DecidableEq G] [Semiring R] {s : Mach G R} (hs : s.Inv) {a b : Handle G} (ha : a ∈ s.vars) (hb : b ∈ s.vars)
    (alpha : R) :
    (∃ e, addNew s a b alpha = .error e ∧ add (deref s.heap a) (deref s.heap b) alpha = .error e) ∨
    ∃ s' r, addNew s a b alpha = .ok s' ∧ add (deref s.heap a) (deref s.heap b) alpha = .ok r ∧ s'.Inv ∧
      s'.values = s.values ++ [r] := by
  obtain ⟨key, hk⟩ := hs
  rcases addCheck_cases (deref s.heap a) (deref s.heap b) with hc | ⟨e, hc⟩
  · right
    obtain ⟨key1, k1, k2, k3, k4, k5, k6, _⟩ := allocAll_spec (deref s.heap a).blocks s.heap s.next key
      (sorted_fetch (hk a ha).sorted)
    set c := allocAll (deref s.heap a).blocks s.heap s.next with hcd
    obtain ⟨l, h', n', key', m1, m2, m3, m4, m5, m6, _⟩ := mergeCells_spec alpha (fun _ => false) (h := c.2.1) k3
      ((hk b hb).mono k2 k1)
    have hfb : fetch c.2.1 b.blocks = (deref s.heap b).blocks := fetch_congr fun e he => k5 _ ((hk b hb).cell e he).1
    rw [k4, hfb] at m5
    have hold : ∀ x < s.next, h' x = s.heap x := by
      intro x hx
      rw [m6 x (by omega), cellAfter_false, k5 x hx]
      intro hl
      have := k6 _ (mem_of_lookup hl)
      simp only at this
      omega
    refine ⟨⟨s.vars ++ [{ a with blocks := l }], h', n'⟩, _, ?_, add_of_merge hc m5, ?_, ?_⟩
    · simp only [addNew, hc, bind, Except.bind]
      rw [← hcd, m1]
    · exact inv_push (key := key) hk (by omega) (fun x hx => by rw [m3 x (by omega), k1 x hx]) m4
    · simp only [Mach.values, List.map_append, List.map_cons, List.map_nil]
      rw [map_deref_congr hk hold]
      rfl
  · left
    exact ⟨e, by simp only [addNew, hc, bind, Except.bind], add_error hc⟩

/-- `add(btensor&&)`. -/
theorem addNewTmp_spec [DecidableEq G] [Semiring R] {s : Mach G R} {key : Nat → List Nat}
    (hk : ∀ t ∈ s.vars, Placed key s.next t.blocks) {a b : Handle G} (ha : a ∈ s.vars) (hb : b ∈ s.vars) (alpha : R) :
    (∃ e, addNewTmp s a b alpha = .error e ∧ add (deref s.heap a) (deref s.heap b) alpha = .error e) ∨
    ∃ s' r l, add (deref s.heap a) (deref s.heap b) alpha = .ok r ∧ r = deref s'.heap { a with blocks := l } ∧ s'.Inv ∧
      s'.vars = s.vars ++ [{ a with blocks := l }] ∧
      addNewTmp s a b alpha = (if r.blocks = [] then Res.ub else .ok s') ∧
      ∀ x < s.next, s'.heap x =
        cellAfter alpha (fun x => decide (refs s.vars x + 1 ≤ 2)) key a.blocks b.blocks s.heap x := by
  rcases addCheck_cases (deref s.heap a) (deref s.heap b) with hc | ⟨e, hc⟩
  · right
    obtain ⟨l, h', n', key', m1, m2, m3, m4, m5, m6, _⟩ := mergeCells_spec alpha
      (fun x => decide (refs s.vars x + 1 ≤ 2)) (h := s.heap) (hk a ha) (hk b hb)
    refine ⟨⟨s.vars ++ [{ a with blocks := l }], h', n'⟩, _, l, add_of_merge hc m5, rfl, ?_, rfl, ?_, m6⟩
    · exact inv_push (key := key) hk m2 m3 m4
    · simp only [addNewTmp, hc, bind, Except.bind]
      rw [m1]
      have : l = [] ↔ fetch h' l = [] := by unfold fetch; rw [List.map_eq_nil_iff]
      simp only [this]
  · left
    exact ⟨e, by simp only [addNewTmp, hc, bind, Except.bind], add_error hc⟩

/-- `add_(const btensor&)`. -/
theorem addInto_spec [DecidableEq G] [Semiring R] {s : Mach G R} {key : Nat → List Nat}
    (hk : ∀ t ∈ s.vars, Placed key s.next t.blocks) {a b : Handle G} (ha : a ∈ s.vars) (hb : b ∈ s.vars) (i : Nat) (alpha : R) :
    (∃ e, addInto s i a b alpha = .error e ∧ add (deref s.heap a) (deref s.heap b) alpha = .error e) ∨
    ∃ s' r l, addInto s i a b alpha = .ok s' ∧ add (deref s.heap a) (deref s.heap b) alpha = .ok r ∧
      r = deref s'.heap { a with blocks := l } ∧ s'.Inv ∧ s'.vars = s.vars.set i { a with blocks := l } ∧
      ∀ x < s.next, s'.heap x = cellAfter alpha (fun _ => false) key a.blocks b.blocks s.heap x := by
  rcases addCheck_cases (deref s.heap a) (deref s.heap b) with hc | ⟨e, hc⟩
  · right
    obtain ⟨l, h', n', key', m1, m2, m3, m4, m5, m6, _⟩ := mergeCells_spec alpha (fun _ => false) (h := s.heap) (hk a ha) (hk b hb)
    refine ⟨⟨s.vars.set i { a with blocks := l }, h', n'⟩, _, l, ?_, add_of_merge hc m5, rfl, ?_, rfl, m6⟩
    · simp only [addInto, hc, bind, Except.bind]
      rw [m1]
    · exact inv_set (key := key') (fun t ht => (hk t ht).mono m2 m3) m4
  · left
    exact ⟨e, by simp only [addInto, hc, bind, Except.bind], add_error hc⟩

/-- `add_(btensor&&)`. -/
theorem addIntoTmp_spec [DecidableEq G] [Semiring R] {s : Mach G R} {key : Nat → List Nat}
    (hk : ∀ t ∈ s.vars, Placed key s.next t.blocks) {a b : Handle G} (ha : a ∈ s.vars) (hb : b ∈ s.vars) (i j : Nat) (alpha : R) :
    (∃ e, addIntoTmp s i j a b alpha = .error e ∧ add (deref s.heap a) (deref s.heap b) alpha = .error e) ∨
    ∃ s' l, addIntoTmp s i j a b alpha = .ok s' ∧ addCheck (deref s.heap a) (deref s.heap b) = .ok () ∧ s'.Inv ∧
      s'.vars = (s.vars.set j { b with blocks := [] }).set i { a with blocks := l } ∧
      FM.mergeInsert (addBlk alpha) (scaleBlk alpha) (fetch s.heap (if i = j then [] else a.blocks)) (fetch s.heap b.blocks) =
        .ok (fetch s'.heap l) ∧
      ∀ x < s.next, s'.heap x = cellAfter alpha
        (fun x => decide (refs (s.vars.set j { b with blocks := [] }) x + 2 * (b.blocks.map Prod.snd).count x ≤ 2)) key
        (if i = j then [] else a.blocks) b.blocks s.heap x := by
  rcases addCheck_cases (deref s.heap a) (deref s.heap b) with hc | ⟨e, hc⟩
  · right
    have hown : Placed key s.next (if i = j then [] else a.blocks) := by
      split
      · exact Placed.nil _ _
      · exact hk a ha
    obtain ⟨l, h', n', key', m1, m2, m3, m4, m5, m6, _⟩ := mergeCells_spec alpha
      (fun x => decide (refs (s.vars.set j { b with blocks := [] }) x + 2 * (b.blocks.map Prod.snd).count x ≤ 2)) (h := s.heap)
      hown (hk b hb)
    refine ⟨⟨(s.vars.set j { b with blocks := [] }).set i { a with blocks := l }, h', n'⟩, l, ?_, hc, ?_, rfl, m5, m6⟩
    · simp only [addIntoTmp, hc, bind, Except.bind]
      rw [m1]
    · refine inv_set (key := key') (fun t ht => ?_) m4
      rcases List.mem_or_eq_of_mem_set ht with ht | ht
      · exact (hk t ht).mono m2 m3
      · rw [ht]; exact Placed.nil _ _
  · left
    exact ⟨e, by simp only [addIntoTmp, hc, bind, Except.bind], add_error hc⟩

/-- `mul_`: every block of the list is scaled once. -/
theorem foldl_scale [Semiring R] (c : R) (key : Nat → List Nat) (n : Nat) : ∀ (l : FM (List Nat) Nat) (h : Nat → Blk R),
    Placed key n l → ∀ x : Nat, l.foldl (fun (h : Nat → Blk R) e => Function.update h e.2 (scaleBlk c (h e.2))) h x =
      if lookup l (key x) = some x then scaleBlk c (h x) else h x
  | [], h, _, x => by simp [lookup]
  | e :: l, h, hp, x => by
    have hs := sorted_cons.mp hp.sorted
    rw [List.foldl_cons, foldl_scale c key n l _ ⟨hs.2, fun y hy => hp.cell y (List.mem_cons_of_mem _ hy)⟩ x, lookup_cons]
    have he := (hp.cell e (by simp)).2
    by_cases hx : x = e.2
    · subst hx
      rw [he, if_neg, if_pos, Function.update_self]
      · simp
      · intro hl
        exact absurd (hs.1 _ (mem_of_lookup hl)) (lt_irrefl _)
    · rw [Function.update_of_ne hx]
      by_cases hke : e.1 = key x
      · have hn : lookup l (key x) = none := lookup_none_of_gt fun y hy => by rw [← hke]; exact hs.1 y hy
        rw [hn, if_neg (by simp), if_pos hke, if_neg]
        simp only [Option.some.injEq]
        exact fun h => hx h.symm
      · rw [if_neg hke]

/-- The invariant is kept by every statement. -/
theorem step_inv [DecidableEq G] [Semiring R] {s s' : Mach G R} {c : Cmd G R} (hf : c.Fine) (hs : s.Inv)
    (h : s.step c = .ok s') : s'.Inv := by
  obtain ⟨key, hk⟩ := hs
  have hget : ∀ {i : Nat} {t : Handle G}, s.vars[i]? = some t → t ∈ s.vars := fun h => List.mem_of_getElem? h
  cases c with
  | new t =>
    obtain ⟨key1, k1, k2, k3, _⟩ := allocAll_spec t.blocks s.heap s.next key hf
    simp only [Mach.step, Except.ok.injEq] at h
    subst h
    exact inv_push (key := key) hk k2 k1 k3
  | copy i =>
    simp only [Mach.step] at h
    split at h
    · rename_i a ha
      cases h
      exact inv_push (key := key) hk (le_refl _) (fun _ _ => rfl) (hk a (hget ha))
    · cases h
  | assign i j =>
    simp only [Mach.step] at h
    split at h
    · rename_i a b ha hb
      cases h
      exact inv_set hk (hk b (hget hb))
    · cases h
  | drop i =>
    simp only [Mach.step] at h
    split at h
    · cases h
      exact inv_set hk (Placed.nil _ _)
    · cases h
  | write i k b =>
    simp only [Mach.step] at h
    split at h
    · split at h
      · cases h; exact ⟨key, hk⟩
      · cases h; exact ⟨key, hk⟩
    · cases h
  | add i j alpha =>
    simp only [Mach.step] at h
    split at h
    · rename_i a b ha hb
      rcases addNew_spec ⟨key, hk⟩ (hget ha) (hget hb) alpha with ⟨e, h1, _⟩ | ⟨s1, r, h1, _, h3, _⟩
      · rw [h1] at h; cases h
      · rw [h1] at h; cases h; exact h3
    · cases h
  | addTmp i j alpha =>
    simp only [Mach.step] at h
    split at h
    · rename_i a b ha hb
      rcases addNewTmp_spec hk (hget ha) (hget hb) alpha with ⟨e, h1, _⟩ | ⟨s1, r, l, _, _, h3, _, h1, _⟩
      · rw [h1] at h; cases h
      · rw [h1] at h
        split at h
        · cases h
        · cases h; exact h3
    · cases h
  | addIn i j alpha =>
    simp only [Mach.step] at h
    split at h
    · rename_i a b ha hb
      rcases addInto_spec hk (hget ha) (hget hb) i alpha with ⟨e, h1, _⟩ | ⟨s1, r, l, h1, _, _, h3, _⟩
      · rw [h1] at h; cases h
      · rw [h1] at h; cases h; exact h3
    · cases h
  | addInTmp i j alpha =>
    simp only [Mach.step] at h
    split at h
    · rename_i a b ha hb
      rcases addIntoTmp_spec hk (hget ha) (hget hb) i j alpha with ⟨e, h1, _⟩ | ⟨s1, l, h1, _, h3, _⟩
      · rw [h1] at h; cases h
      · rw [h1] at h; cases h; exact h3
    · cases h
  | mul i c =>
    simp only [Mach.step] at h
    split at h
    · rename_i a ha
      obtain ⟨key1, k1, k2, k3, _⟩ := allocAll_spec (scale c (deref s.heap a)).blocks s.heap s.next key
        (FM.sorted_map_snd (sorted_fetch (hk a (hget ha)).sorted))
      cases h
      exact inv_push (key := key) hk k2 k1 k3
    · cases h
  | mulIn i c =>
    simp only [Mach.step] at h
    split at h
    · cases h; exact ⟨key, hk⟩
    · cases h

theorem run_inv [DecidableEq G] [Semiring R] : ∀ (cs : List (Cmd G R)) {s s' : Mach G R}, (∀ c ∈ cs, c.Fine) → s.Inv →
    Mach.run cs s = .ok s' → s'.Inv
  | [], s, s', _, hs, h => by cases h; exact hs
  | c :: cs, s, s', hf, hs, h => by
    simp only [Mach.run, bind, Except.bind] at h
    split at h
    · cases h
    · rename_i s1 h1
      exact run_inv cs (fun c hc => hf c (List.mem_cons_of_mem _ hc)) (step_inv (hf c (by simp)) hs h1) h

theorem init_inv [Inhabited R] : (Mach.init : Mach G R).Inv := ⟨fun _ => [], by simp [Mach.init]⟩

theorem Mach.Reached.inv [DecidableEq G] [Semiring R] [Inhabited R] {s : Mach G R} (h : s.Reached) : s.Inv := by
  obtain ⟨cs, h1, h2⟩ := h
  exact run_inv cs h1 init_inv h2

/-- Statements that are not in place have the effect they have on values. -/
theorem outOfPlace_step [DecidableEq G] [Semiring R] {s : Mach G R} (hs : s.Inv) {c : Cmd G R} (hf : c.Fine)
    (ho : c.OutOfPlace) : (s.step c).map Mach.values = valueStep c s.values := by
  obtain ⟨key, hk⟩ := hs
  have hget : ∀ {i : Nat} {t : Handle G}, s.vars[i]? = some t → t ∈ s.vars := fun h => List.mem_of_getElem? h
  cases c with
  | new t =>
    obtain ⟨key1, k1, k2, k3, k4, k5, _⟩ := allocAll_spec t.blocks s.heap s.next key hf
    simp only [Mach.step, valueStep, Except.map, Mach.values, List.map_append, List.map_cons, List.map_nil]
    rw [map_deref_congr hk k5]
    unfold deref
    simp only
    have : List.map (fun e => (e.1, (allocAll t.blocks s.heap s.next).2.1 e.2)) (allocAll t.blocks s.heap s.next).1 = t.blocks := k4
    rw [this]
  | copy i =>
    simp only [Mach.step, valueStep, getElem?_values]
    cases h : s.vars[i]? with
    | none => rfl
    | some a => simp only [Option.map_some, Except.map, Mach.values, List.map_append, List.map_cons, List.map_nil]
  | assign i j =>
    simp only [Mach.step, valueStep, getElem?_values]
    cases h : s.vars[i]? with
    | none => rfl
    | some a =>
      cases h2 : s.vars[j]? with
      | none => rfl
      | some b => simp only [Option.map_some, Except.map, Mach.values, List.map_set]
  | drop i =>
    simp only [Mach.step, valueStep, getElem?_values]
    cases h : s.vars[i]? with
    | none => rfl
    | some a => simp only [Option.map_some, Except.map, Mach.values, List.map_set]; rfl
  | add i j alpha =>
    simp only [Mach.step, valueStep, getElem?_values]
    cases h : s.vars[i]? with
    | none => rfl
    | some a =>
      cases h2 : s.vars[j]? with
      | none => rfl
      | some b =>
        simp only [Option.map_some]
        rcases addNew_spec ⟨key, hk⟩ (hget h) (hget h2) alpha with ⟨e, h3, h4⟩ | ⟨s1, r, h3, h4, _, h5⟩
        · rw [h3, h4]; rfl
        · rw [h3, h4]
          simp only [Except.map, h5]
  | mul i c =>
    simp only [Mach.step, valueStep, getElem?_values]
    cases h : s.vars[i]? with
    | none => rfl
    | some a =>
      obtain ⟨key1, k1, k2, k3, k4, k5, _⟩ := allocAll_spec (scale c (deref s.heap a)).blocks s.heap s.next key
        (FM.sorted_map_snd (sorted_fetch (hk a (hget h)).sorted))
      simp only [Option.map_some, Except.map, Mach.values, List.map_append, List.map_cons, List.map_nil]
      rw [map_deref_congr hk k5]
      congr 3
      show (⟨a.shape, a.rule, fetch _ _⟩ : BT G R) = _
      rw [k4]
      rfl
  | _ => exact absurd ho (by simp [Cmd.OutOfPlace])

/-- How a merge into variable `i` shows in another variable. -/
theorem cell_seen [Semiring R] {alpha : R} {inPlace : Nat → Bool} {key : Nat → List Nat} {n : Nat} {own src t l : FM (List Nat) Nat}
    {h h' : Nat → Blk R} (ht : Placed key n t) (ho : Placed key n own)
    (hsrc : ∀ k x, lookup t k = some x → lookup own k = none → lookup src k = some x → inPlace x = false)
    (hcell : ∀ x < n, h' x = cellAfter alpha inPlace key own src h x)
    (hm : FM.mergeInsert (addBlk alpha) (scaleBlk alpha) (fetch h own) (fetch h src) = .ok (fetch h' l))
    (hs : Sorted src) (k : List Nat) :
    (¬ (∃ x, lookup own k = some x ∧ lookup t k = some x) → lookup (fetch h' t) k = lookup (fetch h t) k) ∧
    ((∃ x, lookup own k = some x ∧ lookup t k = some x) →
      (lookup (fetch h' t) k = if (lookup src k).isSome = true then lookup (fetch h' l) k
        else if ∀ e ∈ src, k < e.1 then
          (if (lookup t k).any inPlace = true then lookup (fetch h' l) k else lookup (fetch h t) k)
        else lookup (fetch h t) k)) := by
  obtain ⟨q, hq, _, hql⟩ := mergeInsert_spec (addBlk alpha) (scaleBlk alpha) (sorted_fetch (h := h) ho.sorted)
      (sorted_fetch (h := h) hs)
  rw [hq] at hm
  injection hm with hm
  subst hm
  have hall' : (∀ e ∈ fetch h src, k < e.1) ↔ ∀ e ∈ src, k < e.1 := List.forall_mem_map
  constructor
  · intro hns
    rw [lookup_fetch, lookup_fetch]
    rcases htk : lookup t k with _ | x
    · rfl
    · have hx := ht.cell _ (mem_of_lookup htk)
      simp only at hx
      simp only [Option.map_some, Option.some.injEq]
      rw [hcell x hx.1]
      unfold cellAfter
      rw [hx.2, if_neg (fun hh => hns ⟨x, hh, htk⟩), if_neg]
      rintro ⟨h1, h2, h3⟩
      rw [hsrc k x htk h1 h2] at h3
      cases h3
  · rintro ⟨x, hox, htx⟩
    have hx := ht.cell _ (mem_of_lookup htx)
    simp only at hx
    rw [hql k]
    simp only [hall']
    rw [lookup_fetch, lookup_fetch, lookup_fetch, lookup_fetch, htx, hox]
    simp only [Option.map_some]
    rw [hcell x hx.1]
    unfold cellAfter
    rw [hx.2, if_pos hox]
    rcases hsk : lookup src k with _ | b
    · simp only [Option.isSome_none, Bool.false_eq_true, if_false]
      by_cases hall : ∀ e ∈ src, k < e.1
      · by_cases hp : inPlace x = true
        · rw [if_pos ⟨hall, hp⟩, if_pos hall, if_pos (by simpa using hp), if_pos hall]
        · rw [if_neg (fun hh => hp hh.2), if_pos hall, if_neg (by simpa using hp)]
      · rw [if_neg (fun hh => hall hh.1), if_neg hall]
    · have hnall : ¬ ∀ e ∈ src, k < e.1 := fun hh => by
        have := hh _ (mem_of_lookup hsk); simp at this
      simp only [if_neg hnall, Option.isSome_some, if_true, mergeVal, Option.map_some]

theorem refs_pos {ts : List (Handle G)} {t : Handle G} {x : Nat} {k : List Nat} (ht : t ∈ ts) (hx : (k, x) ∈ t.blocks) :
    1 ≤ refs ts x := by
  induction ts with
  | nil => simp at ht
  | cons w ts ih =>
    have : refs (w :: ts) x = (w.blocks.map Prod.snd).count x + refs ts x := by simp [refs]
    rcases List.mem_cons.mp ht with rfl | ht
    · have h1 : 1 ≤ (t.blocks.map Prod.snd).count x := List.count_pos_iff.mpr (List.mem_map.mpr ⟨(k, x), hx, rfl⟩)
      omega
    · have := ih ht
      omega

theorem refs_two {ts : List (Handle G)} {i j : Nat} {t u : Handle G} {x : Nat} {k : List Nat} (hij : i ≠ j)
    (ht : ts[i]? = some t) (hu : ts[j]? = some u) (hx : (k, x) ∈ t.blocks) (hy : (k, x) ∈ u.blocks) : 2 ≤ refs ts x := by
  have hp : 1 ≤ refs (ts.set j { u with blocks := [] }) x := by
    refine refs_pos (t := t) (k := k) ?_ hx
    refine List.mem_of_getElem? (i := i) ?_
    rw [List.getElem?_set_ne (fun h => hij h.symm), ht]
  have hsum : refs ts x = refs (ts.set j { u with blocks := [] }) x + (u.blocks.map Prod.snd).count x := by
    clear hp ht hx
    induction ts generalizing i j with
    | nil => simp at hu
    | cons w ts ih =>
      cases j with
      | zero =>
        simp only [List.getElem?_cons_zero, Option.some.injEq] at hu
        subst hu
        simp [refs, Nat.add_comm]
      | succ j =>
        simp only [List.getElem?_cons_succ] at hu
        have := ih (i := j + 1) (j := j) (by omega) hu
        simp only [refs, List.set_cons_succ, List.map_cons, List.sum_cons] at this ⊢
        omega
  have h1 : 1 ≤ (u.blocks.map Prod.snd).count x := List.count_pos_iff.mpr (List.mem_map.mpr ⟨(k, x), hy, rfl⟩)
  omega

end BT
end QuantiT
