import Verif.Model.Alias
import Verif.Lemmas.FlatMapMerge
/-
The memory behind block tensors: what allocation and the merge functors do to it (Model/Alias.lean).
-/
namespace QuantiT
namespace BT
open Spec FM
variable {G R : Type}

/-- A list of addresses is in order, its addresses exist, and every address belongs to the index it is listed at. -/
structure Placed (key : Nat → List Nat) (n : Nat) (l : FM (List Nat) Nat) : Prop where
  sorted : Sorted l
  cell : ∀ e ∈ l, e.2 < n ∧ key e.2 = e.1

theorem Placed.mono {key key' : Nat → List Nat} {n n' : Nat} {l : FM (List Nat) Nat} (h : Placed key n l) (hn : n ≤ n')
    (hk : ∀ x < n, key' x = key x) : Placed key' n' l :=
  ⟨h.sorted, fun e he => ⟨lt_of_lt_of_le (h.cell e he).1 hn, by rw [hk _ (h.cell e he).1, (h.cell e he).2]⟩⟩

theorem Placed.nil (key : Nat → List Nat) (n : Nat) : Placed key n [] := ⟨sorted_nil, by simp⟩

/-- The blocks behind a list of addresses. -/
def fetch (h : Nat → Blk R) (l : FM (List Nat) Nat) : FM (List Nat) (Blk R) := l.map fun e => (e.1, h e.2)

theorem deref_blocks (h : Nat → Blk R) (t : Handle G) : (deref h t).blocks = fetch h t.blocks := rfl

theorem lookup_fetch (h : Nat → Blk R) (l : FM (List Nat) Nat) (k : List Nat) :
    lookup (fetch h l) k = (lookup l k).map h := FM.lookup_map_snd h l k

theorem sorted_fetch {h : Nat → Blk R} {l : FM (List Nat) Nat} (hl : Sorted l) : Sorted (fetch h l) := FM.sorted_map_snd hl

theorem fetch_congr {h h' : Nat → Blk R} {l : FM (List Nat) Nat} (hh : ∀ e ∈ l, h' e.2 = h e.2) : fetch h' l = fetch h l := by
  unfold fetch
  exact List.map_congr_left fun e he => by rw [hh e he]

/-! ### Allocation -/

theorem allocAll_spec : ∀ (bl : FM (List Nat) (Blk R)) (h : Nat → Blk R) (n : Nat) (key : Nat → List Nat), Sorted bl →
    ∃ key', (∀ x < n, key' x = key x) ∧ n ≤ (allocAll bl h n).2.2 ∧ Placed key' (allocAll bl h n).2.2 (allocAll bl h n).1 ∧
      fetch (allocAll bl h n).2.1 (allocAll bl h n).1 = bl ∧ (∀ x < n, (allocAll bl h n).2.1 x = h x) ∧
      (∀ e ∈ (allocAll bl h n).1, n ≤ e.2) ∧ (allocAll bl h n).1.map Prod.fst = bl.map Prod.fst
  | [], h, n, key, _ => ⟨key, by simp [allocAll, fetch, Placed.nil]⟩
  | e :: es, h, n, key, hs => by
    rw [sorted_cons] at hs
    obtain ⟨key1, h1, h2, h3, h4, h5, h6, h7⟩ := allocAll_spec es (Function.update h n e.2) (n + 1)
      (Function.update key n e.1) hs.2
    set r := allocAll es (Function.update h n e.2) (n + 1) with hr
    have hfst : ∀ y ∈ r.1, e.1 < y.1 := by
      intro y hy
      have : y.1 ∈ es.map Prod.fst := by rw [← h7]; exact List.mem_map_of_mem hy
      obtain ⟨z, hz, hzy⟩ := List.mem_map.mp this
      rw [← hzy]; exact hs.1 z hz
    have hdef : allocAll (e :: es) h n = ((e.1, n) :: r.1, r.2) := rfl
    refine ⟨key1, ?_, ?_, ?_, ?_, ?_, ?_, ?_⟩
    · intro x hx
      rw [h1 x (by omega), Function.update_of_ne (by omega)]
    · rw [hdef]; show n ≤ r.2.2; omega
    · rw [hdef]
      refine ⟨sorted_cons.mpr ⟨hfst, h3.sorted⟩, ?_⟩
      intro y hy
      rcases List.mem_cons.mp hy with rfl | hy
      · refine ⟨by show n < r.2.2; omega, ?_⟩
        show key1 n = e.1
        rw [h1 n (by omega), Function.update_self]
      · exact h3.cell y hy
    · rw [hdef]
      show (e.1, r.2.1 n) :: fetch r.2.1 r.1 = e :: es
      rw [h4, h5 n (by omega), Function.update_self]
    · intro x hx
      rw [hdef]
      show r.2.1 x = h x
      rw [h5 x (by omega), Function.update_of_ne (by omega)]
    · rw [hdef]
      intro y hy
      rcases List.mem_cons.mp hy with rfl | hy
      · exact le_refl _
      · have := h6 y hy; omega
    · rw [hdef]; simp [h7]

/-! ### The calls of a merge -/

/-- The value an entry ends with. -/
def Eff.val [Semiring R] (alpha : R) (h : Nat → Blk R) : Eff → Blk R
  | .keep a => h a
  | .hit a b => addBlk alpha (h a) (h b)
  | .lone a => scaleBlk alpha (h a)

/-- The addresses an entry reads. -/
def Eff.cells : Eff → List Nat
  | .keep a => [a]
  | .hit a b => [a, b]
  | .lone a => [a]

/-- The address an entry writes to, when it existed before. -/
def Eff.writes (inPlace : Nat → Bool) : Eff → Option Nat
  | .keep _ => none
  | .hit a _ => some a
  | .lone a => if inPlace a then some a else none

theorem execAll_spec [Semiring R] (alpha : R) (inPlace : Nat → Bool) (h : Nat → Blk R) (n : Nat) (key : Nat → List Nat) :
    ∀ (r : FM (List Nat) Eff), Sorted r → (∀ e ∈ r, ∀ x ∈ e.2.cells, x < n ∧ key x = e.1) →
    ∃ l h' n' key', execAll alpha inPlace r h n = (l, h', n') ∧ n ≤ n' ∧ (∀ x < n, key' x = key x) ∧ Placed key' n' l ∧
      l.map Prod.fst = r.map Prod.fst ∧ fetch h' l = r.map (fun e => (e.1, e.2.val alpha h)) ∧
      (∀ x < n, (∀ e ∈ r, e.2.writes inPlace ≠ some x) → h' x = h x) ∧
      ∀ e ∈ r, ∀ x, e.2.writes inPlace = some x → h' x = e.2.val alpha h
  | [], _, _ => ⟨[], h, n, key, rfl, le_refl _, fun _ _ => rfl, Placed.nil _ _, rfl, rfl, fun _ _ _ => rfl, by simp⟩
  | e :: es, hs, hc => by
    rw [sorted_cons] at hs
    obtain ⟨l, h1, n1, key1, a1, a2, a3, a4, a5, a6, a7, a8⟩ := execAll_spec alpha inPlace h n key es hs.2
      (fun y hy => hc y (List.mem_cons_of_mem _ hy))
    have hlt : ∀ y ∈ l, e.1 < y.1 := by
      intro y hy
      have : y.1 ∈ es.map Prod.fst := by rw [← a5]; exact List.mem_map_of_mem hy
      obtain ⟨z, hz, hzy⟩ := List.mem_map.mp this
      rw [← hzy]; exact hs.1 z hz
    -- the cells of this entry are untouched so far
    have hw : ∀ y : List Nat × Eff, ∀ x, y.2.writes inPlace = some x → x ∈ y.2.cells := by
      intro y x hx
      rcases y with ⟨k, y⟩
      cases y with
      | keep a => simp [Eff.writes] at hx
      | hit a b => simp only [Eff.writes, Option.some.injEq] at hx; simp [Eff.cells, hx]
      | lone a =>
        simp only [Eff.writes] at hx
        split at hx
        · simp only [Option.some.injEq] at hx; simp [Eff.cells, hx]
        · cases hx
    have hun : ∀ x ∈ e.2.cells, h1 x = h x := by
      intro x hx
      refine a7 x (hc e (by simp) x hx).1 ?_
      intro y hy hyx
      have h3 := (hc y (List.mem_cons_of_mem _ hy) x (hw y x hyx)).2
      have h4 := (hc e (by simp) x hx).2
      exact absurd (h4.symm.trans h3) (ne_of_lt (hs.1 y hy))
    have hdef : execAll alpha inPlace (e :: es) h n =
        ((e.1, (execEff alpha inPlace e.2 h1 n1).1) :: l, (execEff alpha inPlace e.2 h1 n1).2) := by
      show ((e.1, (execEff alpha inPlace e.2 (execAll alpha inPlace es h n).2.1 (execAll alpha inPlace es h n).2.2).1) ::
        (execAll alpha inPlace es h n).1,
        (execEff alpha inPlace e.2 (execAll alpha inPlace es h n).2.1 (execAll alpha inPlace es h n).2.2).2) = _
      rw [a1]
    have hne : ∀ x, x < n → key x = e.1 → ∀ y ∈ l, y.2 ≠ x := by
      intro x hx hk y hy he
      have := (a4.cell y hy).2
      rw [he, a3 x hx, hk] at this
      exact absurd this (ne_of_lt (hlt y hy))
    -- writing to an old address of this index
    have hold : ∀ (x : Nat) (v : Blk R), x < n → key x = e.1 → v = e.2.val alpha h →
        (∀ z, e.2.writes inPlace = some z ↔ z = x) →
        execEff alpha inPlace e.2 h1 n1 = (x, Function.update h1 x v, n1) →
        ∃ l h' n' key', execAll alpha inPlace (e :: es) h n = (l, h', n') ∧ n ≤ n' ∧ (∀ x < n, key' x = key x) ∧ Placed key' n' l ∧
          l.map Prod.fst = (e :: es).map Prod.fst ∧ fetch h' l = (e :: es).map (fun e => (e.1, e.2.val alpha h)) ∧
          (∀ x < n, (∀ y ∈ (e :: es), y.2.writes inPlace ≠ some x) → h' x = h x) ∧
          ∀ y ∈ (e :: es), ∀ x, y.2.writes inPlace = some x → h' x = y.2.val alpha h := by
      intro x v hx hk hv hwr hex
      refine ⟨(e.1, x) :: l, Function.update h1 x v, n1, key1, by rw [hdef, hex], a2, a3, ?_, by simp [a5], ?_, ?_, ?_⟩
      · refine ⟨sorted_cons.mpr ⟨hlt, a4.sorted⟩, ?_⟩
        intro y hy
        rcases List.mem_cons.mp hy with rfl | hy
        · exact ⟨lt_of_lt_of_le hx a2, by rw [a3 x hx, hk]⟩
        · exact a4.cell y hy
      · show (e.1, Function.update h1 x v x) :: fetch _ l = _
        rw [Function.update_self, List.map_cons, hv, fetch_congr (h := h1), a6]
        intro y hy
        rw [Function.update_of_ne (hne x hx hk y hy)]
      · intro z hz hzw
        have : z ≠ x := fun hzx => hzw e (by simp) ((hwr z).mpr hzx)
        rw [Function.update_of_ne this]
        exact a7 z hz fun y hy => hzw y (List.mem_cons_of_mem _ hy)
      · intro y hy z hyz
        rcases List.mem_cons.mp hy with rfl | hy
        · rw [(hwr z).mp hyz, Function.update_self, hv]
        · have h5 := hc y (List.mem_cons_of_mem _ hy) z (hw y z hyz)
          have : z ≠ x := by
            rintro rfl
            exact absurd (hk.symm.trans h5.2) (ne_of_lt (hs.1 y hy))
          rw [Function.update_of_ne this]
          exact a8 y hy z hyz
    rcases e with ⟨k, e⟩
    cases e with
    | keep a =>
      have ha := hc (k, .keep a) (by simp) a (by simp [Eff.cells])
      refine ⟨(k, a) :: l, h1, n1, key1, by rw [hdef]; rfl, a2, a3, ?_, by simp [a5], ?_, ?_, ?_⟩
      · refine ⟨sorted_cons.mpr ⟨hlt, a4.sorted⟩, ?_⟩
        intro y hy
        rcases List.mem_cons.mp hy with rfl | hy
        · exact ⟨lt_of_lt_of_le ha.1 a2, by rw [a3 _ ha.1, ha.2]⟩
        · exact a4.cell y hy
      · show (k, h1 a) :: fetch h1 l = _
        rw [hun a (by simp [Eff.cells]), a6]; rfl
      · intro z hz hzw
        exact a7 z hz fun y hy => hzw y (List.mem_cons_of_mem _ hy)
      · intro y hy z hyz
        rcases List.mem_cons.mp hy with rfl | hy
        · simp [Eff.writes] at hyz
        · exact a8 y hy z hyz
    | hit a b =>
      have ha := hc (k, .hit a b) (by simp) a (by simp [Eff.cells])
      refine hold a (addBlk alpha (h1 a) (h1 b)) ha.1 ha.2 ?_ ?_ rfl
      · rw [hun a (by simp [Eff.cells]), hun b (by simp [Eff.cells])]; rfl
      · intro z; simp [Eff.writes, eq_comm]
    | lone a =>
      have ha := hc (k, .lone a) (by simp) a (by simp [Eff.cells])
      by_cases hp : inPlace a = true
      · refine hold a (scaleBlk alpha (h1 a)) ha.1 ha.2 ?_ ?_ ?_
        · rw [hun a (by simp [Eff.cells])]; rfl
        · intro z; simp [Eff.writes, hp, eq_comm]
        · simp [execEff, hp]
      · have hex : execEff alpha inPlace (Eff.lone a) h1 n1 =
            (n1, Function.update h1 n1 (scaleBlk alpha (h1 a)), n1 + 1) := by simp [execEff, hp]
        refine ⟨(k, n1) :: l, Function.update h1 n1 (scaleBlk alpha (h1 a)), n1 + 1, Function.update key1 n1 k,
          by rw [hdef, hex], by omega, ?_, ?_, by simp [a5], ?_, ?_, ?_⟩
        · intro x hx; rw [Function.update_of_ne (by omega), a3 x hx]
        · refine ⟨sorted_cons.mpr ⟨hlt, a4.sorted⟩, ?_⟩
          intro y hy
          rcases List.mem_cons.mp hy with rfl | hy
          · exact ⟨by simp, by simp⟩
          · have := a4.cell y hy
            exact ⟨by omega, by rw [Function.update_of_ne (by omega)]; exact this.2⟩
        · show (k, Function.update h1 n1 _ n1) :: fetch _ l = _
          rw [Function.update_self, List.map_cons, fetch_congr (h := h1), a6, hun a (by simp [Eff.cells])]
          · rfl
          · intro y hy
            have := (a4.cell y hy).1
            rw [Function.update_of_ne (by omega)]
        · intro z hz hzw
          rw [Function.update_of_ne (by omega)]
          exact a7 z hz fun y hy => hzw y (List.mem_cons_of_mem _ hy)
        · intro y hy z hyz
          rcases List.mem_cons.mp hy with rfl | hy
          · simp [Eff.writes, hp] at hyz
          · have h5 := hc y (List.mem_cons_of_mem _ hy) z (hw y z hyz)
            rw [Function.update_of_ne (by omega)]
            exact a8 y hy z hyz

/-- What a merge does to an address that existed before. -/
def cellAfter [Semiring R] (alpha : R) (inPlace : Nat → Bool) (key : Nat → List Nat) (own src : FM (List Nat) Nat)
    (h : Nat → Blk R) (x : Nat) : Blk R :=
  if lookup own (key x) = some x then
    match lookup src (key x) with
    | some b => addBlk alpha (h x) (h b)
    | none => if (∀ e ∈ src, key x < e.1) ∧ inPlace x = true then scaleBlk alpha (h x) else h x
  else if lookup own (key x) = none ∧ lookup src (key x) = some x ∧ inPlace x = true then scaleBlk alpha (h x)
  else h x

theorem mergeCells_spec [Semiring R] (alpha : R) (inPlace : Nat → Bool) {own src : FM (List Nat) Nat} {h : Nat → Blk R}
    {n : Nat} {key : Nat → List Nat} (ho : Placed key n own) (hsrc : Placed key n src) :
    ∃ l h' n' key', mergeCells alpha inPlace own src h n = .ok (l, h', n') ∧ n ≤ n' ∧ (∀ x < n, key' x = key x) ∧
      Placed key' n' l ∧
      FM.mergeInsert (addBlk alpha) (scaleBlk alpha) (fetch h own) (fetch h src) = .ok (fetch h' l) ∧
      (∀ x < n, h' x = cellAfter alpha inPlace key own src h x) ∧
      (∀ k, (lookup l k).isSome = ((lookup own k).isSome || (lookup src k).isSome)) := by
  obtain ⟨r, hr, hrs, hrl⟩ := mergeInsert_spec Eff.meet Eff.only (m := own.map fun e => (e.1, Eff.keep e.2))
    (src := src.map fun e => (e.1, Eff.keep e.2)) (FM.sorted_map_snd ho.sorted) (FM.sorted_map_snd hsrc.sorted)
  have hall : ∀ k, (∀ e ∈ src.map (fun e => (e.1, Eff.keep e.2)), k < e.1) ↔ ∀ e ∈ src, k < e.1 := by
    intro k; exact List.forall_mem_map
  have hrl' : ∀ k, lookup r k =
      match lookup own k, lookup src k with
      | some a, some b => some (.hit a b)
      | some a, none => some (if ∀ e ∈ src, k < e.1 then .lone a else .keep a)
      | none, some b => some (.lone b)
      | none, none => none := by
    intro k
    rw [hrl k, FM.lookup_map_snd, FM.lookup_map_snd]
    simp only [hall]
    by_cases hk : ∀ e ∈ src, k < e.1
    · rw [if_pos hk, lookup_none_of_gt hk]
      cases lookup own k <;> simp only [Option.map_some, Option.map_none, Eff.only, if_pos hk]
    · rw [if_neg hk]
      cases lookup own k <;> cases lookup src k <;>
        simp only [Option.map_some, Option.map_none, mergeVal, Eff.meet, Eff.only, if_neg hk]
  have hcells : ∀ e ∈ r, ∀ x ∈ e.2.cells, x < n ∧ key x = e.1 := by
    intro e he x hx
    have hl := lookup_of_mem hrs he
    rw [hrl'] at hl
    have hoo : ∀ a, lookup own e.1 = some a → a < n ∧ key a = e.1 := fun a ha => ho.cell _ (mem_of_lookup ha)
    have hss : ∀ a, lookup src e.1 = some a → a < n ∧ key a = e.1 := fun a ha => hsrc.cell _ (mem_of_lookup ha)
    rcases h1 : lookup own e.1 with _ | a <;> rcases h2 : lookup src e.1 with _ | b <;> rw [h1, h2] at hl <;>
      simp only [Option.some.injEq] at hl
    · cases hl
    · rw [← hl] at hx
      simp only [Eff.cells, List.mem_singleton] at hx
      rw [hx]; exact hss b h2
    · split at hl <;> (rw [← hl] at hx; simp only [Eff.cells, List.mem_singleton] at hx; rw [hx]; exact hoo a h1)
    · rw [← hl] at hx
      simp only [Eff.cells, List.mem_cons, List.not_mem_nil, or_false] at hx
      rcases hx with rfl | rfl
      · exact hoo _ h1
      · exact hss _ h2
  obtain ⟨l, h', n', key', b1, b2, b3, b4, b5, b6, b7, b8⟩ := execAll_spec alpha inPlace h n key r hrs hcells
  refine ⟨l, h', n', key', ?_, b2, b3, b4, ?_, ?_, ?_⟩
  · simp only [mergeCells, hr, bind, Except.bind, b1]
  · obtain ⟨q, hq, hqs, hql⟩ := mergeInsert_spec (addBlk alpha) (scaleBlk alpha) (sorted_fetch (h := h) ho.sorted)
      (sorted_fetch (h := h) hsrc.sorted)
    rw [hq]
    congr 1
    refine sorted_ext hqs (sorted_fetch b4.sorted) ?_
    intro k
    rw [hql k, b6, FM.lookup_map_snd, hrl', lookup_fetch, lookup_fetch]
    have hall' : (∀ e ∈ fetch h src, k < e.1) ↔ ∀ e ∈ src, k < e.1 := List.forall_mem_map
    simp only [hall']
    by_cases hk : ∀ e ∈ src, k < e.1
    · rw [if_pos hk, lookup_none_of_gt hk]
      cases lookup own k <;> simp only [Option.map_some, Option.map_none, if_pos hk, Eff.val]
    · rw [if_neg hk]
      cases lookup own k <;> cases lookup src k <;>
        simp only [Option.map_some, Option.map_none, mergeVal, if_neg hk, Eff.val]
  · intro x hx
    have hwhich : ∀ e ∈ r, e.2.writes inPlace = some x → lookup r (key x) = some e.2 := by
      intro e he hw
      have hxc : x ∈ e.2.cells := by
        rcases e with ⟨k, y⟩
        cases y with
        | keep a => simp [Eff.writes] at hw
        | hit a b => simp only [Eff.writes, Option.some.injEq] at hw; simp [Eff.cells, hw]
        | lone a =>
          simp only [Eff.writes] at hw
          split at hw
          · simp only [Option.some.injEq] at hw; simp [Eff.cells, hw]
          · cases hw
      rw [(hcells e he x hxc).2]
      exact lookup_of_mem hrs he
    have hno : (∀ e, lookup r (key x) = some e → e.writes inPlace ≠ some x) → h' x = h x := fun hh =>
      b7 x hx fun e he hw => hh e.2 (hwhich e he hw) hw
    have hyes : ∀ e, lookup r (key x) = some e → e.writes inPlace = some x → h' x = e.val alpha h := fun e he hw =>
      b8 _ (mem_of_lookup he) x hw
    have hlx := hrl' (key x)
    unfold cellAfter
    rcases h1 : lookup own (key x) with _ | a <;> rcases h2 : lookup src (key x) with _ | b <;> rw [h1, h2] at hlx <;>
      simp only at hlx
    · simp only [reduceCtorEq, if_false, false_and, and_false]
      exact hno fun e he => by rw [hlx] at he; cases he
    · simp only [reduceCtorEq, if_false, true_and, Option.some.injEq]
      split
      · rename_i hb
        refine hyes _ hlx ?_ |>.trans ?_
        · simp [Eff.writes, hb.2, hb.1]
        · simp [Eff.val, hb.1]
      · rename_i hb
        refine hno fun e he => ?_
        rw [hlx] at he
        cases he
        simp only [Eff.writes]
        split
        · intro hbx
          simp only [Option.some.injEq] at hbx
          subst hbx
          exact hb ⟨rfl, ‹_›⟩
        · simp
    · simp only [Option.some.injEq, reduceCtorEq, false_and, if_false]
      by_cases hax : a = x
      · rw [if_pos hax]
        by_cases hk : ∀ e ∈ src, key x < e.1
        · rw [if_pos hk] at hlx
          by_cases hp : inPlace x = true
          · rw [if_pos ⟨hk, hp⟩]
            refine hyes _ hlx ?_ |>.trans ?_
            · simp [Eff.writes, hax, hp]
            · simp [Eff.val, hax]
          · rw [if_neg (fun hh => hp hh.2)]
            refine hno fun e he => ?_
            rw [hlx] at he
            cases he
            simp [Eff.writes, hax, hp]
        · rw [if_neg hk] at hlx
          rw [if_neg (fun hh => hk hh.1)]
          refine hno fun e he => ?_
          rw [hlx] at he
          cases he
          simp [Eff.writes]
      · rw [if_neg hax]
        refine hno fun e he => ?_
        rw [hlx] at he
        cases he
        split <;> simp only [Eff.writes] <;> (try split) <;> simp [hax]
    · simp only [Option.some.injEq, reduceCtorEq, false_and, if_false]
      by_cases hax : a = x
      · rw [if_pos hax]
        refine hyes _ hlx ?_ |>.trans ?_
        · simp [Eff.writes, hax]
        · simp [Eff.val, hax]
      · rw [if_neg hax]
        refine hno fun e he => ?_
        rw [hlx] at he
        cases he
        simp [Eff.writes, hax]
  · intro k
    have hk1 : (lookup l k).isSome = (lookup r k).isSome := by
      have h3 := congrArg (fun m => (lookup m k).isSome) b6
      simp only [lookup_fetch, FM.lookup_map_snd, Option.isSome_map] at h3
      exact h3
    rw [hk1, hrl']
    cases lookup own k <;> cases lookup src k <;> simp

end BT
end QuantiT
