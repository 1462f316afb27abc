import Verif.Lemmas.Alias2
import Mathlib.Algebra.Ring.Int.Defs
/-
C90, C91: copies of block tensors share storage; which operations show in which tensors.
-/
namespace QuantiT
namespace BT
open Spec FM
variable {G R : Type}

/-! ## C90 -/

/-- `C90`, one statement.  Whatever a program did before, in place or not: a statement that creates a tensor (`new`, `copy`,
`add(const btensor&)`, `mul`), rebinds a variable or ends one has exactly the effect it has on values.  In particular every
other variable keeps its value, and it fails exactly when the operation on the values does. -/
theorem C90_out_of_place_partial [DecidableEq G] [Semiring R] [Inhabited R] {s : Mach G R} (hs : s.Reached) {c : Cmd G R}
    (hf : c.Fine) (ho : c.OutOfPlace) : (s.step c).map Mach.values = valueStep c s.values :=
  outOfPlace_step hs.inv hf ho

/-- `C90`, whole programs without operations in place: sharing storage is not observable, all variables hold at every point
what they would hold if tensors were values. -/
theorem C90_programs_partial [DecidableEq G] [Semiring R] [Inhabited R] (cs : List (Cmd G R)) (hf : ∀ c ∈ cs, c.Fine)
    (ho : ∀ c ∈ cs, c.OutOfPlace) : (Mach.run cs Mach.init).map Mach.values = valueRun cs [] := by
  have gen : ∀ (cs : List (Cmd G R)) (s : Mach G R), s.Inv → (∀ c ∈ cs, c.Fine) → (∀ c ∈ cs, c.OutOfPlace) →
      (Mach.run cs s).map Mach.values = valueRun cs s.values := by
    intro cs
    induction cs with
    | nil => intro s _ _ _; rfl
    | cons c cs ih =>
      intro s hs hf ho
      have h1 := outOfPlace_step hs (hf c (by simp)) (ho c (by simp))
      simp only [Mach.run, valueRun, bind, Except.bind]
      rw [← h1]
      cases h2 : s.step c with
      | error e => rfl
      | ok s' =>
        simp only [Except.map]
        exact ih s' (step_inv (hf c (by simp)) hs h2) (fun c hc => hf c (List.mem_cons_of_mem _ hc))
          (fun c hc => ho c (List.mem_cons_of_mem _ hc))
  exact gen cs Mach.init init_inv hf ho

/-- `C90` is false of `add(btensor&&)`, which `a.add(b.mul(2))`, `a.sub(std::move(b))` … call: the result is right, but the
blocks of `a` that have a partner in `b` are overwritten with the blocks of the sum, and so are the blocks of `a` before all
blocks of `b` when `a` alone holds them. -/
theorem C90_add_temporary_fails [DecidableEq G] [Semiring R] [Inhabited R] {s : Mach G R} (hs : s.Reached) {i j : Nat}
    {a b : BT G R} (ha : s.values[i]? = some a) (hb : s.values[j]? = some b) {alpha : R} {r : BT G R}
    (hr : add a b alpha = .ok r) (hne : r.blocks ≠ []) :
    ∃ s' a', s.step (.addTmp i j alpha) = .ok s' ∧ s'.values[i]? = some a' ∧ s'.values[s.vars.length]? = some r ∧
      (∀ k, (lookup a.blocks k).isSome → (lookup b.blocks k).isSome → lookup a'.blocks k = lookup r.blocks k) ∧
      (∀ k, (lookup a.blocks k).isSome → (∀ e ∈ b.blocks, k < e.1) → (∀ v, v ≠ i → ¬ s.Shares i v k) →
        lookup a'.blocks k = lookup r.blocks k) := by
  obtain ⟨key, hk⟩ := hs.inv
  rw [getElem?_values] at ha hb
  obtain ⟨ta, hta, rfl⟩ := Option.map_eq_some_iff.mp ha
  obtain ⟨tb, htb, rfl⟩ := Option.map_eq_some_iff.mp hb
  have hma := List.mem_of_getElem? hta
  have hmb := List.mem_of_getElem? htb
  rcases addNewTmp_spec hk hma hmb alpha with ⟨e, _, h2⟩ | ⟨s', r', l, h1, h2, _, h4, h5, h6⟩
  · rw [h2] at hr; cases hr
  · rw [h1] at hr
    cases hr
    rw [if_neg hne] at h5
    have hlen : i < s.vars.length := (List.getElem?_eq_some_iff.mp hta).1
    have hm : FM.mergeInsert (addBlk alpha) (scaleBlk alpha) (fetch s.heap ta.blocks) (fetch s.heap tb.blocks) =
        .ok (fetch s'.heap l) := by
      have h7 := h1
      rcases addCheck_cases (deref s.heap ta) (deref s.heap tb) with hc | ⟨e, hc⟩
      · obtain ⟨q, hq, _, _⟩ := mergeInsert_spec (addBlk alpha) (scaleBlk alpha) (sorted_fetch (h := s.heap) (hk ta hma).sorted)
          (sorted_fetch (h := s.heap) (hk tb hmb).sorted)
        rw [add_of_merge hc hq, h2] at h7
        injection h7 with h7
        have := congrArg BT.blocks h7
        simp only at this
        rw [hq, this]; rfl
      · rw [add_error hc] at h7; cases h7
    have hseen := fun k => cell_seen (t := ta.blocks) (l := l) (hk ta hma) (hk ta hma)
      (fun k x h1 h2 _ => by rw [h1] at h2; cases h2) h6 hm (hk tb hmb).sorted k
    refine ⟨s', deref s'.heap ta, ?_, ?_, ?_, ?_, ?_⟩
    · simp only [Mach.step, hta, htb, h5]
    · rw [getElem?_values, h4, List.getElem?_append_left hlen, hta]; rfl
    · rw [getElem?_values, h4, h2]; simp
    · intro k hka hkb
      rw [deref_blocks, lookup_fetch, Option.isSome_map] at hka hkb
      obtain ⟨x, hx⟩ := Option.isSome_iff_exists.mp hka
      rw [deref_blocks, (hseen k).2 ⟨x, hx, hx⟩, if_pos hkb, h2]; rfl
    · intro k hka hlow hsh
      rw [deref_blocks, lookup_fetch, Option.isSome_map] at hka
      obtain ⟨x, hx⟩ := Option.isSome_iff_exists.mp hka
      have hlow' : ∀ e ∈ tb.blocks, k < e.1 := fun e he => hlow (e.1, s.heap e.2) (List.mem_map.mpr ⟨e, he, rfl⟩)
      have hcount : refs s.vars x ≤ 1 := by
        have hone : ∀ t ∈ s.vars, (t.blocks.map Prod.snd).count x ≤ 1 := by
          intro t ht
          have hnd : (t.blocks.map Prod.snd).Nodup := by
            rw [List.nodup_map_iff_inj_on]
            · intro e he f hf hef
              have h8 := (hk t ht).cell e he
              have h9 := (hk t ht).cell f hf
              rw [← hef] at h9
              exact Prod.ext (h8.2.symm.trans h9.2) hef
            · exact List.Pairwise.imp (fun h e => by rw [e] at h; exact absurd h (lt_irrefl _)) (hk t ht).sorted
          exact List.nodup_iff_count_le_one.mp hnd x
        have hzero : ∀ v t, v ≠ i → s.vars[v]? = some t → (t.blocks.map Prod.snd).count x = 0 := by
          intro v t hv ht
          rw [List.count_eq_zero]
          intro hmem
          obtain ⟨e, he, hex⟩ := List.mem_map.mp hmem
          have h8 := (hk t (List.mem_of_getElem? ht)).cell e he
          have h9 := (hk ta hma).cell _ (mem_of_lookup hx)
          rw [hex, h9.2] at h8
          exact hsh v hv ⟨ta, t, x, hta, ht, hx, by
            have := lookup_of_mem (hk t (List.mem_of_getElem? ht)).sorted he
            rw [← h8.2, hex] at this; exact this⟩
        have gen : ∀ (ts : List (Handle G)) (i : Nat), (∀ t ∈ ts, (t.blocks.map Prod.snd).count x ≤ 1) →
            (∀ v t, v ≠ i → ts[v]? = some t → (t.blocks.map Prod.snd).count x = 0) → refs ts x ≤ 1 := by
          intro ts
          induction ts with
          | nil => intro i _ _; simp [refs]
          | cons w ts ih =>
            intro i h1 h2
            have hcons : refs (w :: ts) x = (w.blocks.map Prod.snd).count x + refs ts x := by simp [refs]
            cases i with
            | zero =>
              have h3 : refs ts x = 0 := by
                unfold refs
                refine List.sum_eq_zero fun y hy => ?_
                obtain ⟨t, ht, rfl⟩ := List.mem_map.mp hy
                obtain ⟨v, hv, hvt⟩ := List.mem_iff_getElem.mp ht
                exact h2 (v + 1) t (by omega) (by simp [List.getElem?_eq_getElem hv, hvt])
              have := h1 w (by simp)
              omega
            | succ i =>
              have h3 := ih i (fun t ht => h1 t (List.mem_cons_of_mem _ ht))
                (fun v t hv ht => h2 (v + 1) t (by omega) (by simpa using ht))
              have := h2 0 w (by omega) (by simp)
              omega
        exact gen s.vars i hone hzero
      have hnb : ¬ (lookup tb.blocks k).isSome = true := by
        rw [lookup_none_of_gt hlow']; simp
      rw [deref_blocks, (hseen k).2 ⟨x, hx, hx⟩, if_neg hnb, if_pos hlow', if_pos, h2]
      · rfl
      · rw [hx]; simpa using hcount

/-- … and it reads a block that does not exist when neither operand holds a block, e.g. for a sum of two zeros. -/
theorem C90_add_temporary_empty_fails [DecidableEq G] [Semiring R] [Inhabited R] {s : Mach G R} (hs : s.Reached) {i j : Nat}
    {a b : BT G R} (ha : s.values[i]? = some a) (hb : s.values[j]? = some b) {alpha : R} {r : BT G R}
    (hr : add a b alpha = .ok r) (hne : r.blocks = []) : s.step (.addTmp i j alpha) = Res.ub := by
  obtain ⟨key, hk⟩ := hs.inv
  rw [getElem?_values] at ha hb
  obtain ⟨ta, hta, rfl⟩ := Option.map_eq_some_iff.mp ha
  obtain ⟨tb, htb, rfl⟩ := Option.map_eq_some_iff.mp hb
  rcases addNewTmp_spec hk (List.mem_of_getElem? hta) (List.mem_of_getElem? htb) alpha with
    ⟨e, _, h2⟩ | ⟨s', r', l, h1, _, _, _, h5, _⟩
  · rw [h2] at hr; cases hr
  · rw [h1] at hr
    cases hr
    simp only [Mach.step, hta, htb, h5, if_pos hne]

/-! ## C91 -/

/-- `C91`, `a.add_(b, alpha)` and its forms, after any program: `a` becomes what `a.add(b, alpha)` is.  In any other variable
— `b` and copies of `a` included — a block changes exactly when it shares its storage with the block of `a` at that index and
`b` stores a block there; it then becomes the new block of `a`. -/
theorem C91_add_in_place [DecidableEq G] [Semiring R] [Inhabited R] {s : Mach G R} (hs : s.Reached) {i j : Nat}
    {a b : BT G R} (ha : s.values[i]? = some a) (hb : s.values[j]? = some b) (alpha : R) :
    (∃ e, add a b alpha = .error e ∧ s.step (.addIn i j alpha) = .error e) ∨
    ∃ r s', add a b alpha = .ok r ∧ s.step (.addIn i j alpha) = .ok s' ∧ s'.values.length = s.values.length ∧
      s'.values[i]? = some r ∧
      ∀ v, v ≠ i → ∀ t, s.values[v]? = some t → ∃ t', s'.values[v]? = some t' ∧ t'.shape = t.shape ∧ t'.rule = t.rule ∧
        ∀ k, (s.Shares i v k ∧ (lookup b.blocks k).isSome → lookup t'.blocks k = lookup r.blocks k) ∧
          (¬ (s.Shares i v k ∧ (lookup b.blocks k).isSome) → lookup t'.blocks k = lookup t.blocks k) := by
  obtain ⟨key, hk⟩ := hs.inv
  rw [getElem?_values] at ha hb
  obtain ⟨ta, hta, rfl⟩ := Option.map_eq_some_iff.mp ha
  obtain ⟨tb, htb, rfl⟩ := Option.map_eq_some_iff.mp hb
  have hma := List.mem_of_getElem? hta
  have hmb := List.mem_of_getElem? htb
  rcases addInto_spec hk hma hmb i alpha with ⟨e, h1, h2⟩ | ⟨s', r, l, h1, h2, h3, _, h4, h6⟩
  · exact Or.inl ⟨e, h2, by simp only [Mach.step, hta, htb, h1]⟩
  · right
    have hlen : i < s.vars.length := (List.getElem?_eq_some_iff.mp hta).1
    have hm : FM.mergeInsert (addBlk alpha) (scaleBlk alpha) (fetch s.heap ta.blocks) (fetch s.heap tb.blocks) =
        .ok (fetch s'.heap l) := by
      have h7 := h2
      rcases addCheck_cases (deref s.heap ta) (deref s.heap tb) with hc | ⟨e, hc⟩
      · obtain ⟨q, hq, _, _⟩ := mergeInsert_spec (addBlk alpha) (scaleBlk alpha) (sorted_fetch (h := s.heap) (hk ta hma).sorted)
          (sorted_fetch (h := s.heap) (hk tb hmb).sorted)
        rw [add_of_merge hc hq, h3] at h7
        injection h7 with h7
        have := congrArg BT.blocks h7
        simp only at this
        rw [hq, this]; rfl
      · rw [add_error hc] at h7; cases h7
    refine ⟨r, s', h2, by simp only [Mach.step, hta, htb, h1], by simp [Mach.values, h4], ?_, ?_⟩
    · rw [getElem?_values, h4, List.getElem?_set_self hlen, h3]; rfl
    · intro v hv t ht
      rw [getElem?_values] at ht
      obtain ⟨tt, htt, rfl⟩ := Option.map_eq_some_iff.mp ht
      refine ⟨deref s'.heap tt, ?_, rfl, rfl, ?_⟩
      · rw [getElem?_values, h4, List.getElem?_set_ne (fun h => hv h.symm), htt]; rfl
      · intro k
        have hseen := cell_seen (t := tt.blocks) (l := l) (hk tt (List.mem_of_getElem? htt)) (hk ta hma)
          (fun k x _ _ _ => rfl) h6 hm (hk tb hmb).sorted k
        have hsh : s.Shares i v k ↔ ∃ x, lookup ta.blocks k = some x ∧ lookup tt.blocks k = some x := by
          constructor
          · rintro ⟨a, b, x, e1, e2, e3, e4⟩
            rw [hta] at e1; rw [htt] at e2
            cases e1; cases e2
            exact ⟨x, e3, e4⟩
          · rintro ⟨x, e3, e4⟩
            exact ⟨ta, tt, x, hta, htt, e3, e4⟩
        have hbs : (lookup (deref s.heap tb).blocks k).isSome = (lookup tb.blocks k).isSome := by
          rw [deref_blocks, lookup_fetch, Option.isSome_map]
        rw [hsh, hbs]
        constructor
        · rintro ⟨h8, h9⟩
          rw [deref_blocks, hseen.2 h8, if_pos h9, h3]; rfl
        · intro hn
          by_cases h8 : ∃ x, lookup ta.blocks k = some x ∧ lookup tt.blocks k = some x
          · rw [deref_blocks, hseen.2 h8, if_neg (fun h9 => hn ⟨h8, h9⟩)]
            simp only [Option.any]
            split
            · rw [if_neg (by cases lookup tt.blocks k <;> simp)]; rfl
            · rfl
          · rw [deref_blocks, hseen.1 h8]; rfl

/-- `C91`: when the target shares no block with another variable, `add_` has its effect on values and no other. -/
theorem C91_add_unshared [DecidableEq G] [Semiring R] [Inhabited R] {s : Mach G R} (hs : s.Reached) {i j : Nat} (alpha : R)
    (hu : ∀ v, v ≠ i → ∀ k, ¬ s.Shares i v k) :
    (s.step (.addIn i j alpha)).map Mach.values = valueStep (.addIn i j alpha) s.values := by
  obtain ⟨key, hk⟩ := hs.inv
  cases hi : s.vars[i]? with
  | none => simp only [Mach.step, valueStep, getElem?_values, hi]; rfl
  | some ta =>
    cases hj : s.vars[j]? with
    | none => simp only [Mach.step, valueStep, getElem?_values, hi, hj]; rfl
    | some tb =>
      have hma := List.mem_of_getElem? hi
      have hmb := List.mem_of_getElem? hj
      have hlen : i < s.vars.length := (List.getElem?_eq_some_iff.mp hi).1
      simp only [Mach.step, valueStep, getElem?_values, hi, hj, Option.map_some]
      rcases addInto_spec hk hma hmb i alpha with ⟨e, h1, h2⟩ | ⟨s', r, l, h1, h2, h3, _, h4, h6⟩
      · rw [h1, h2]; rfl
      · rw [h1, h2]
        simp only [Except.map, Except.ok.injEq]
        refine List.ext_getElem? fun v => ?_
        rw [getElem?_values, h4]
        by_cases hv : v = i
        · subst hv
          rw [List.getElem?_set_self hlen, List.getElem?_set_self (by simpa [Mach.values] using hlen), h3]; rfl
        · rw [List.getElem?_set_ne (fun h => hv h.symm), List.getElem?_set_ne (fun h => hv h.symm), getElem?_values]
          cases hvt : s.vars[v]? with
          | none => rfl
          | some t =>
            simp only [Option.map_some, Option.some.injEq]
            unfold deref
            congr 1
            refine fetch_congr fun e he => ?_
            have hc := (hk t (List.mem_of_getElem? hvt)).cell e he
            rw [h6 _ hc.1, cellAfter_false]
            rw [hc.2]
            intro hl
            exact hu v hv e.1 ⟨ta, t, e.2, hi, hvt, hl, lookup_of_mem (hk t (List.mem_of_getElem? hvt)).sorted he⟩

/-- `C91`, `a.add_(std::move(b), alpha)` for two variables: `a` becomes the sum, `b` is left without blocks, and a third
variable is changed only in blocks whose storage it shares with `a` — sharing with `b` does no harm.  Where it shares
with `a` and `b` stores a block, it gets the block of the sum. -/
theorem C91_add_temporary [DecidableEq G] [Semiring R] [Inhabited R] {s : Mach G R} (hs : s.Reached) {i j : Nat} (hij : i ≠ j)
    {a b : BT G R} (ha : s.values[i]? = some a) (hb : s.values[j]? = some b) (alpha : R) :
    (∃ e, add a b alpha = .error e ∧ s.step (.addInTmp i j alpha) = .error e) ∨
    ∃ r s', add a b alpha = .ok r ∧ s.step (.addInTmp i j alpha) = .ok s' ∧ s'.values.length = s.values.length ∧
      s'.values[i]? = some r ∧ s'.values[j]? = some (emptied b) ∧
      ∀ v, v ≠ i → v ≠ j → ∀ t, s.values[v]? = some t → ∃ t', s'.values[v]? = some t' ∧ t'.shape = t.shape ∧ t'.rule = t.rule ∧
        ∀ k, (s.Shares i v k → (lookup b.blocks k).isSome → lookup t'.blocks k = lookup r.blocks k) ∧
          (¬ s.Shares i v k → lookup t'.blocks k = lookup t.blocks k) := by
  obtain ⟨key, hk⟩ := hs.inv
  rw [getElem?_values] at ha hb
  obtain ⟨ta, hta, rfl⟩ := Option.map_eq_some_iff.mp ha
  obtain ⟨tb, htb, rfl⟩ := Option.map_eq_some_iff.mp hb
  have hma := List.mem_of_getElem? hta
  have hmb := List.mem_of_getElem? htb
  rcases addIntoTmp_spec hk hma hmb i j alpha with ⟨e, h1, h2⟩ | ⟨s', l, h1, h2, _, h4, hm, h6⟩
  · exact Or.inl ⟨e, h2, by simp only [Mach.step, hta, htb, h1]⟩
  · right
    rw [if_neg hij] at hm h6
    have hleni : i < s.vars.length := (List.getElem?_eq_some_iff.mp hta).1
    have hlenj : j < s.vars.length := (List.getElem?_eq_some_iff.mp htb).1
    refine ⟨{ deref s.heap ta with blocks := fetch s'.heap l }, s', add_of_merge h2 hm, by simp only [Mach.step, hta, htb, h1],
      by simp [Mach.values, h4], ?_, ?_, ?_⟩
    · rw [getElem?_values, h4, List.getElem?_set_self (by simpa using hleni)]; rfl
    · rw [getElem?_values, h4, List.getElem?_set_ne hij, List.getElem?_set_self hlenj]; rfl
    · intro v hvi hvj t ht
      rw [getElem?_values] at ht
      obtain ⟨tt, htt, rfl⟩ := Option.map_eq_some_iff.mp ht
      have hmt := List.mem_of_getElem? htt
      refine ⟨deref s'.heap tt, ?_, rfl, rfl, ?_⟩
      · rw [getElem?_values, h4, List.getElem?_set_ne (fun h => hvi h.symm), List.getElem?_set_ne (fun h => hvj h.symm), htt]; rfl
      · intro k
        have hseen := cell_seen (t := tt.blocks) (l := l) (hk tt hmt) (hk ta hma)
          (fun k x e1 _ e3 => by
            have h8 : 1 ≤ refs (s.vars.set j { tb with blocks := [] }) x := by
              refine refs_pos (t := tt) (k := k) ?_ (mem_of_lookup e1)
              refine List.mem_of_getElem? (i := v) ?_
              rw [List.getElem?_set_ne (fun h => hvj h.symm), htt]
            have h9 : 1 ≤ (tb.blocks.map Prod.snd).count x :=
              List.count_pos_iff.mpr (List.mem_map.mpr ⟨(k, x), mem_of_lookup e3, rfl⟩)
            simp only [decide_eq_false_iff_not]
            omega) h6 hm (hk tb hmb).sorted k
        have hsh : s.Shares i v k ↔ ∃ x, lookup ta.blocks k = some x ∧ lookup tt.blocks k = some x := by
          constructor
          · rintro ⟨a, b, x, e1, e2, e3, e4⟩
            rw [hta] at e1; rw [htt] at e2
            cases e1; cases e2
            exact ⟨x, e3, e4⟩
          · rintro ⟨x, e3, e4⟩
            exact ⟨ta, tt, x, hta, htt, e3, e4⟩
        have hbs : (lookup (deref s.heap tb).blocks k).isSome = (lookup tb.blocks k).isSome := by
          rw [deref_blocks, lookup_fetch, Option.isSome_map]
        rw [hsh, hbs]
        constructor
        · intro h8 h9
          rw [deref_blocks, hseen.2 h8, if_pos h9]
        · intro h8
          rw [deref_blocks, hseen.1 h8]; rfl

/-- `a.add_(std::move(a), alpha)` moves the blocks of the target away first: `a` becomes `alpha*a` instead of `a + alpha*a`. -/
theorem C91_self_move_fails [DecidableEq G] [Semiring R] [Inhabited R] {s : Mach G R} (hs : s.Reached) {i : Nat}
    {a : BT G R} (ha : s.values[i]? = some a) (alpha : R) :
    ∃ s', s.step (.addInTmp i i alpha) = .ok s' ∧ s'.values[i]? = some (scale alpha a) := by
  obtain ⟨key, hk⟩ := hs.inv
  rw [getElem?_values] at ha
  obtain ⟨ta, hta, rfl⟩ := Option.map_eq_some_iff.mp ha
  have hma := List.mem_of_getElem? hta
  have hlen : i < s.vars.length := (List.getElem?_eq_some_iff.mp hta).1
  rcases addIntoTmp_spec hk hma hma i i alpha with ⟨e, h1, h2⟩ | ⟨s', l, h1, h2, h3, h4, hm, h6⟩
  · exfalso
    have hc : addCheck (deref s.heap ta) (deref s.heap ta) = .ok () := by simp [addCheck]
    obtain ⟨q, hq, _, _⟩ := mergeInsert_spec (addBlk alpha) (scaleBlk alpha) (sorted_fetch (h := s.heap) (hk ta hma).sorted)
      (sorted_fetch (h := s.heap) (hk ta hma).sorted)
    rw [add_of_merge hc hq] at h2
    cases h2
  · refine ⟨s', by simp only [Mach.step, hta, h1], ?_⟩
    rw [getElem?_values, h4, List.getElem?_set_self (by simpa using hlen)]
    simp only [Option.map_some, Option.some.injEq]
    rw [if_pos rfl] at hm
    obtain ⟨q, hq, hqs, hql⟩ := mergeInsert_spec (addBlk alpha) (scaleBlk alpha) (m := ([] : FM (List Nat) (Blk R))) sorted_nil
      (sorted_fetch (h := s.heap) (hk ta hma).sorted)
    have hmq : fetch s'.heap l = q := by
      have : (fetch s.heap [] : FM (List Nat) (Blk R)) = [] := rfl
      rw [this, hq] at hm
      injection hm with hm
      exact hm.symm
    show (⟨ta.shape, ta.rule, fetch s'.heap l⟩ : BT G R) = ⟨ta.shape, ta.rule, _⟩
    congr 1
    rw [hmq]
    refine sorted_ext hqs (FM.sorted_map_snd (sorted_fetch (h := s.heap) (hk ta hma).sorted)) fun k => ?_
    rw [hql k, FM.lookup_map_snd, lookup_nil, deref_blocks]
    by_cases hall : ∀ e ∈ fetch s.heap ta.blocks, k < e.1
    · rw [if_pos hall, lookup_none_of_gt hall]
    · rw [if_neg hall]
      cases lookup (fetch s.heap ta.blocks) k <;> rfl

/-- `C91`, `a.mul_(c)`: `a` is scaled, and the other variables in exactly the blocks they share with it. -/
theorem C91_mul_in_place [DecidableEq G] [Semiring R] [Inhabited R] {s : Mach G R} (hs : s.Reached) {i : Nat}
    {a : BT G R} (ha : s.values[i]? = some a) (c : R) :
    ∃ s', s.step (.mulIn i c) = .ok s' ∧ s'.values.length = s.values.length ∧ s'.values[i]? = some (scale c a) ∧
      ∀ v t, s.values[v]? = some t → ∃ t', s'.values[v]? = some t' ∧ t'.shape = t.shape ∧ t'.rule = t.rule ∧
        ∀ k, (s.Shares i v k → lookup t'.blocks k = lookup (scale c a).blocks k) ∧
          (¬ s.Shares i v k → lookup t'.blocks k = lookup t.blocks k) := by
  obtain ⟨key, hk⟩ := hs.inv
  rw [getElem?_values] at ha
  obtain ⟨ta, hta, rfl⟩ := Option.map_eq_some_iff.mp ha
  have hma := List.mem_of_getElem? hta
  have hh := foldl_scale c key s.next ta.blocks s.heap (hk ta hma)
  set h' := ta.blocks.foldl (fun (h : Nat → Blk R) e => Function.update h e.2 (scaleBlk c (h e.2))) s.heap with hh'
  refine ⟨{ s with heap := h' }, by simp only [Mach.step, hta, hh'], by simp [Mach.values], ?_, ?_⟩
  · rw [getElem?_values]
    simp only [hta, Option.map_some, Option.some.injEq]
    show (⟨ta.shape, ta.rule, fetch h' ta.blocks⟩ : BT G R) = ⟨ta.shape, ta.rule, _⟩
    congr 1
    refine sorted_ext (sorted_fetch (hk ta hma).sorted) (FM.sorted_map_snd (sorted_fetch (h := s.heap) (hk ta hma).sorted))
      fun k => ?_
    rw [lookup_fetch, FM.lookup_map_snd, deref_blocks, lookup_fetch]
    rcases hl : lookup ta.blocks k with _ | x
    · rfl
    · simp only [Option.map_some, Option.some.injEq]
      have hx := (hk ta hma).cell _ (mem_of_lookup hl)
      rw [hh x, if_pos (by rw [hx.2, hl])]
  · intro v t ht
    rw [getElem?_values] at ht
    obtain ⟨tt, htt, rfl⟩ := Option.map_eq_some_iff.mp ht
    have hmt := List.mem_of_getElem? htt
    refine ⟨deref h' tt, by rw [getElem?_values]; simp only [htt, Option.map_some], rfl, rfl, ?_⟩
    intro k
    constructor
    · rintro ⟨a, b, x, e1, e2, e3, e4⟩
      rw [hta] at e1; rw [htt] at e2
      cases e1; cases e2
      have hx := (hk ta hma).cell _ (mem_of_lookup e3)
      have hsc : lookup (scale c (deref s.heap ta)).blocks k = (lookup (fetch s.heap ta.blocks) k).map (scaleBlk c) :=
        FM.lookup_map_snd _ _ _
      rw [deref_blocks, hsc, lookup_fetch, lookup_fetch, e3, e4]
      simp only [Option.map_some, Option.some.injEq]
      rw [hh x, if_pos (by rw [hx.2, e3])]
    · intro hn
      rw [deref_blocks, deref_blocks, lookup_fetch, lookup_fetch]
      rcases hl : lookup tt.blocks k with _ | x
      · rfl
      · simp only [Option.map_some, Option.some.injEq]
        have hx := (hk tt hmt).cell _ (mem_of_lookup hl)
        rw [hh x, if_neg]
        intro h9
        rw [hx.2] at h9
        exact hn ⟨ta, tt, x, hta, htt, h9, hl⟩

/-! ## Concrete programs -/

/-- A tensor with two sections of charges 0 and 1 in both dimensions and the rule 0, storing the diagonal blocks `x`, `y`. -/
def exAl (x y : Int) : BT Int Int :=
  ⟨[[(1, 0), (1, 1)], [(1, 0), (1, -1)]], 0, [([0, 0], ⟨[1, 1], fun _ => x⟩), ([1, 1], ⟨[1, 1], fun _ => y⟩)]⟩

/-- The same with the second diagonal block only. -/
def exAl1 (y : Int) : BT Int Int :=
  ⟨[[(1, 0), (1, 1)], [(1, 0), (1, -1)]], 0, [([1, 1], ⟨[1, 1], fun _ => y⟩)]⟩

/-- What the variables hold, as numbers. -/
def seen (s : Mach Int Int) : List (List (List Nat × Int)) :=
  s.values.map fun t => t.blocks.map fun e => (e.1, e.2.f [0, 0])

/-- A program with copies, sums and products out of place: `a`, `b`, a copy of `a`, `a + b`, `3 a`. -/
def exProg : List (Cmd Int Int) := [.new (exAl 5 7), .new (exAl1 1), .copy 0, .add 0 1 1, .mul 0 3]

example : (∀ c ∈ exProg, c.Fine) ∧ (∀ c ∈ exProg, c.OutOfPlace) := by
  constructor
  · intro c hc
    simp only [exProg, List.mem_cons, List.not_mem_nil, or_false] at hc
    rcases hc with rfl | rfl | rfl | rfl | rfl <;> simp [Cmd.Fine, exAl, exAl1, Sorted] <;> decide
  · intro c hc
    simp only [exProg, List.mem_cons, List.not_mem_nil, or_false] at hc
    rcases hc with rfl | rfl | rfl | rfl | rfl <;> simp [Cmd.OutOfPlace]

example : (Mach.run exProg Mach.init).map seen =
    .ok [[([0, 0], 5), ([1, 1], 7)], [([1, 1], 1)], [([0, 0], 5), ([1, 1], 7)], [([0, 0], 5), ([1, 1], 8)],
      [([0, 0], 15), ([1, 1], 21)]] := by decide +kernel

/-- In place: the copy of `a` sees the block that `b` stores change, and not the other. -/
example : (Mach.run [.new (exAl 5 7), .new (exAl1 1), .copy 0, .addIn 0 1 1] Mach.init).map seen =
    .ok [[([0, 0], 5), ([1, 1], 8)], [([1, 1], 1)], [([0, 0], 5), ([1, 1], 8)]] := by decide +kernel

/-- `a.add(b.mul(2))` changes `a`. -/
example : (Mach.run [.new (exAl 5 7), .new (exAl1 1), .mul 1 2, .addTmp 0 2 1] Mach.init).map seen =
    .ok [[([0, 0], 5), ([1, 1], 9)], [([1, 1], 1)], [([1, 1], 2)], [([0, 0], 5), ([1, 1], 9)]] := by decide +kernel

/-- `a.sub(std::move(b))` negates in `a` the block before all blocks of `b`. -/
example : (Mach.run [.new (exAl 5 7), .new (exAl1 1), .addTmp 0 1 (-1)] Mach.init).map seen =
    .ok [[([0, 0], -5), ([1, 1], 6)], [([1, 1], 1)], [([0, 0], -5), ([1, 1], 6)]] := by decide +kernel

/-- `z.add(std::move(z))` for a tensor of zeros without blocks. -/
example : Mach.run [.new { exAl 5 7 with blocks := [] }, .addTmp 0 0 1] (Mach.init : Mach Int Int) = Res.ub := rfl

end BT
end QuantiT
