import Verif.Lemmas.Contract
import Mathlib.Algebra.BigOperators.Ring.List
/-
The result of the contraction loops for two operands that fit together.
-/
set_option linter.unusedSectionVars false
namespace QuantiT.BT
open QuantiT.Spec
variable {G R : Type}

/-! ### Matching contracted dimensions -/

theorem Contractible.counts [AddCommMonoid G] {c c' : Shape G} (h : Contractible c c') : secCounts c = secCounts c' := by
  induction h with
  | nil => rfl
  | cons h _ ih => simp only [secCounts, List.map_cons] at ih ⊢; rw [h.length_eq, ih]

theorem Contractible.locate [AddCommMonoid G] {d d' : Dim G} (h : List.Forall₂ (fun s s' => s.1 = s'.1 ∧ s.2 + s'.2 = 0) d d') (e : Nat) :
    locate d e = locate d' e := by
  induction h generalizing e with
  | nil => rfl
  | cons h _ ih => simp only [Spec.locate, h.1, ih]

theorem Contractible.dimSize [AddCommMonoid G] {d d' : Dim G} (h : List.Forall₂ (fun s s' => s.1 = s'.1 ∧ s.2 + s'.2 = 0) d d') :
    dimSize d = dimSize d' := by
  induction h with
  | nil => rfl
  | cons h _ ih => rw [dimSize_cons, dimSize_cons, h.1, ih]

theorem Contractible.sizes [AddCommMonoid G] {c c' : Shape G} (h : Contractible c c') : c.map Spec.dimSize = c'.map Spec.dimSize := by
  induction h with
  | nil => rfl
  | cons h _ ih => rw [List.map_cons, List.map_cons, ih, Contractible.dimSize h]

theorem Contractible.locateAll [AddCommMonoid G] {c c' : Shape G} (h : Contractible c c') (e : List Nat) :
    locateAll c e = locateAll c' e := by
  induction h generalizing e with
  | nil => rfl
  | cons h _ ih =>
    cases e with
    | nil => rfl
    | cons x e => simp only [Spec.locateAll, Contractible.locate h, ih]

theorem Contractible.sections [AddCommMonoid G] {c c' : Shape G} (h : Contractible c c') {z : List Nat} {s s'}
    (h1 : sections c z = some s) (h2 : sections c' z = some s') : s'.map Prod.fst = s.map Prod.fst ∧ charge s + charge s' = 0 := by
  induction h generalizing z s s' with
  | nil =>
    cases z <;> simp [Spec.sections] at h1 h2
    subst h1; subst h2; simp [charge]
  | @cons d d' ds ds' hd _ ih =>
    cases z with
    | nil => simp [Spec.sections] at h1
    | cons b z =>
      obtain ⟨x, r, g1, g2, rfl⟩ := sections_cons.mp h1
      obtain ⟨x', r', g1', g2', rfl⟩ := sections_cons.mp h2
      obtain ⟨e1, e2⟩ := ih g2 g2'
      have hx : x.1 = x'.1 ∧ x.2 + x'.2 = 0 := by
        obtain ⟨i1, rfl⟩ := List.getElem?_eq_some_iff.mp g1
        obtain ⟨i2, rfl⟩ := List.getElem?_eq_some_iff.mp g1'
        exact (List.forall₂_iff_get.mp hd).2 b i1 i2
      refine ⟨by simp [e1, hx.1], ?_⟩
      simp only [charge, List.map_cons, List.sum_cons] at e2 ⊢
      rw [add_add_add_comm, hx.2, e2, add_zero]

theorem Contractible.secSizes [AddCommMonoid G] {c c' : Shape G} (h : Contractible c c') {z : List Nat} {s}
    (h1 : Spec.sections c z = some s) : ∃ s', Spec.sections c' z = some s' ∧ secSizes c' z = secSizes c z := by
  obtain ⟨s', hs'⟩ := sections_of_inRange (shape := c') (b := z) (by rw [← Contractible.counts h]; exact sections_inRange h1)
  refine ⟨s', hs', ?_⟩
  rw [secSizes_eq h1, secSizes_eq hs', (Contractible.sections h h1 hs').1]

theorem checkPair_eq [AddCommMonoid G] [DecidableEq G] {a b : Shape G} {i j : Nat} {d d' : Dim G} (h1 : a[i]? = some d) (h2 : b[j]? = some d')
    (h : List.Forall₂ (fun s s' => s.1 = s'.1 ∧ s.2 + s'.2 = 0) d d') : checkPair a b (i, j) = .ok () := by
  simp only [checkPair, h1, h2]
  rw [if_neg (not_not.mpr h.length_eq), if_pos]
  clear h1 h2
  induction h with
  | nil => rfl
  | cons h _ ih => simp [h.2]; simpa using ih

theorem tdotShape_eq [AddCommMonoid G] [DecidableEq G] {a b : Shape G} {da db : List Nat} {c c' : Shape G} (hda : da.Nodup) (hdb : db.Nodup)
    (h1 : gather da a = some c) (h2 : gather db b = some c') (h : Contractible c c') :
    tdotShape a b da db = .ok (outer da a.length ++ da, db ++ outer db b.length) := by
  have hl : da.length = db.length := by rw [← gather_length h1, ← gather_length h2, h.length_eq]
  have hm : (da.zip db).mapM (checkPair a b) = .ok ((da.zip db).map fun _ => ()) := by
    refine mapM_ok ?_
    rintro ⟨i, j⟩ hij
    obtain ⟨n, hn, he⟩ := List.getElem_of_mem hij
    rw [List.getElem_zip] at he
    simp only [Prod.mk.injEq] at he
    rw [List.length_zip] at hn
    have q1 := (List.forall₂_iff_get.mp (gather_iff.mp h1)).2 n (by omega) (by rw [gather_length h1]; omega)
    have q2 := (List.forall₂_iff_get.mp (gather_iff.mp h2)).2 n (by omega) (by rw [gather_length h2]; omega)
    simp only [List.get_eq_getElem, he.1] at q1
    simp only [List.get_eq_getElem, he.2] at q2
    exact checkPair_eq q1 q2 ((List.forall₂_iff_get.mp h).2 n _ _)
  simp only [tdotShape, hm, bind, Except.bind]
  rw [if_neg (not_not.mpr hl), if_neg (not_not.mpr hda), if_neg (not_not.mpr hdb)]

/-! ### Sums of products -/

section
variable [Semiring R]

/-- Entry of the product of two matrices. -/
def mmEntry (p : Blk R × Blk R) (i j : Nat) : R :=
  ((List.range (p.1.dims.getD 1 0)).map fun k => p.1.f [i, k] * p.2.f [k, j]).sum

theorem mm_eq {p : Blk R × Blk R} {r c q : Nat} (h1 : p.1.dims = [r, c]) (h2 : p.2.dims = [c, q]) :
    mm p.1 p.2 = .ok ⟨[r, q], fun o => mmEntry p (o.getD 0 0) (o.getD 1 0)⟩ := by
  simp only [mm, h1, h2, mmEntry]; simp

theorem foldlM_addmm {r q : Nat} : ∀ (ps : List (Blk R × Blk R)) (acc : Blk R), acc.dims = [r, q] →
    (∀ p ∈ ps, ∃ c, p.1.dims = [r, c] ∧ p.2.dims = [c, q]) →
    ps.foldlM addmm acc = .ok ⟨[r, q], fun o => acc.f o + (ps.map fun p => mmEntry p (o.getD 0 0) (o.getD 1 0)).sum⟩
  | [], acc, h, _ => by
    obtain ⟨d, f⟩ := acc
    simp only at h; subst h
    simp [pure, Except.pure]
  | p :: ps, acc, h, hp => by
    obtain ⟨c, h1, h2⟩ := hp p (by simp)
    have hadd : addmm acc p = .ok ⟨[r, q], fun o => acc.f o + mmEntry p (o.getD 0 0) (o.getD 1 0)⟩ := by
      simp only [addmm, mm_eq h1 h2, bind, Except.bind, h, if_true]
    rw [List.foldlM_cons, hadd]
    simp only [bind, Except.bind]
    rw [foldlM_addmm ps _ rfl (fun x hx => hp x (by simp [hx]))]
    simp [add_assoc]

/-- The output block for the matches `ps`. -/
def outBlk (sx sy : List Nat) (ps : List (Blk R × Blk R)) : Blk R :=
  ⟨sx ++ sy, fun o =>
    let ij := unflat [sx.prod, sy.prod] (flat (sx ++ sy) o)
    (ps.map fun p => mmEntry p (ij.getD 0 0) (ij.getD 1 0)).sum⟩

theorem outBlk_f {sx sy : List Nat} (ps : List (Blk R × Blk R)) {ox oy : List Nat} (hx : InRange ox sx) (hy : InRange oy sy) :
    (outBlk sx sy ps).f (ox ++ oy) = (ps.map fun p => mmEntry p (flat sx ox) (flat sy oy)).sum := by
  have hlt := flat_lt hy
  simp only [outBlk, flat_append (List.Forall₂.length_eq hx), unflat, List.prod_nil, Nat.div_one, List.prod_singleton]
  rw [Nat.mul_comm, Nat.mul_add_div (by omega), Nat.mul_add_mod, Nat.mod_eq_of_lt hlt, Nat.div_eq_of_lt hlt]
  simp

theorem pairResult_eq [AddCommMonoid G] [DecidableEq G] {out : BT G R} {idx : List Nat} {sx sy : List Nat} {secs} {ps : List (Blk R × Blk R)}
    (hsec : ps ≠ [] → sections out.shape idx = some secs ∧ secs.map Prod.fst = sx ++ sy)
    (hp : ∀ p ∈ ps, ∃ c, p.1.dims = [sx.prod, c] ∧ p.2.dims = [c, sy.prod]) (acc : FM (List Nat) (Blk R)) :
    pairResult out idx acc ps = .ok (acc ++ if ps = [] then [] else [(idx, outBlk sx sy ps)]) := by
  rcases ps with _ | ⟨p, ps⟩
  · simp [pairResult]
  · obtain ⟨c, h1, h2⟩ := hp p (by simp)
    obtain ⟨s1, s2⟩ := hsec (by simp)
    simp only [pairResult, blockSizes_eq s1, mm_eq h1 h2, bind, Except.bind, s2]
    rw [foldlM_addmm ps _ rfl (fun x hx => hp x (by simp [hx]))]
    simp only [reshapeBlk]
    rw [if_pos (by simp)]
    simp [outBlk]

end

/-! ### Putting the loops together -/

theorem lookup_col {dl : Nat} {T : FM (List Nat) (Blk R)} (hs : Sorted T) (hlen : ∀ e ∈ T, dl ≤ e.1.length) {x z : List Nat} (hz : z.length = dl) :
    lookup ((col dl T x).map fun e => (tailKey dl e.1, e.2)) z = lookup T (x ++ z) := by
  have key : ∀ e ∈ T, (e.1 = x ++ z ↔ headKey dl e.1 = x ∧ tailKey dl e.1 = z) := by
    intro e he
    constructor
    · intro h; rw [h]; exact ⟨headKey_append hz, tailKey_append hz⟩
    · rintro ⟨h1, h2⟩; rw [← h1, ← h2, head_tail]
  clear hs
  induction T with
  | nil => simp [col, lookup_nil]
  | cons e T ih =>
    have ih := ih (fun e he => hlen e (by simp [he])) (fun e he => key e (by simp [he]))
    have hk := key e (by simp)
    rw [lookup_cons]
    by_cases h : e.1 = x ++ z
    · obtain ⟨h1, h2⟩ := hk.mp h
      rw [if_pos h]
      simp only [col, List.filter_cons, h1, decide_true, if_true, List.map_cons]
      rw [lookup_cons, if_pos h2]
    · rw [if_neg h, ← ih]
      by_cases h1 : headKey dl e.1 = x
      · have h2 : tailKey dl e.1 ≠ z := fun h2 => h (hk.mpr ⟨h1, h2⟩)
        simp only [col, List.filter_cons, h1, decide_true, if_true, List.map_cons]
        rw [lookup_cons, if_neg h2]
      · simp only [col, List.filter_cons, h1, decide_false]
        rfl

theorem sum_pairsList [Semiring R] {dl : Nat} (as bs : FM (List Nat) (Blk R)) (φ : Blk R × Blk R → R) :
    ((pairsList dl as bs).map φ).sum = ((as.map fun e => (tailKey dl e.1, e.2)).map fun e =>
      match lookup (bs.map fun b => (tailKey dl b.1, b.2)) e.1 with | some b => φ (e.2, b) | none => 0).sum := by
  induction as with
  | nil => rfl
  | cons a as ih =>
    rw [pairsList_cons_left, List.map_append, List.sum_append, ih]
    simp only [List.map_cons, List.sum_cons]
    congr 1
    generalize lookup (bs.map fun b => (tailKey dl b.1, b.2)) (tailKey dl a.1) = q
    cases q <;> simp

variable [AddCommMonoid G] [DecidableEq G] [Semiring R]

theorem Operand.keyed {t : BT G R} {d : List Nat} {S C : Shape G} {swap T} (h : Operand t d S C swap T)
    (hS : ∀ d ∈ S, d.length ≤ int64Max) (hC : ∀ d ∈ C, d.length ≤ int64Max) : Keyed (S.length + C.length) T := by
  have hr : ∀ {sh : Shape G} {k : List Nat}, (∀ d ∈ sh, d.length ≤ int64Max) → InRange k (secCounts sh) → ∀ c ∈ k, c < int64Max := by
    intro sh k hsh hk
    induction sh generalizing k with
    | nil => cases hk; simp
    | cons d sh ih =>
      cases hk with
      | cons h1 h2 =>
        intro c hc
        rcases List.mem_cons.mp hc with rfl | hc
        · exact lt_of_lt_of_le h1 (hsh d (by simp))
        · exact ih (fun d hd => hsh d (by simp [hd])) h2 c hc
  refine ⟨h.sorted, ?_, ?_⟩
  · rintro ⟨k, M⟩ he
    obtain ⟨x, z, sx, sz, rfl, h1, h2, _⟩ := h.mem k M he
    simp [(sections_length h1).1, (sections_length h2).1]
  · rintro ⟨k, M⟩ he c hc
    obtain ⟨x, z, sx, sz, rfl, h1, h2, _⟩ := h.mem k M he
    rcases List.mem_append.mp hc with hc | hc
    · exact hr hS (sections_inRange h1) c hc
    · exact hr hC (sections_inRange h2) c hc

/-- Everything about a pair of columns. -/
theorem pair_facts {a b : BT G R} {da db : List Nat} {S1 S2 C1 C2 : Shape G} {T1 T2 : FM (List Nat) (Blk R)} {dl : Nat}
    (h1 : Operand a da S1 C1 false T1) (h2 : Operand b db S2 C2 true T2) (hc : Contractible C1 C2) (hdl : C1.length = dl)
    {x y : List Nat} : ∀ p ∈ pairsList dl (col dl T1 x) (col dl T2 y),
    ∃ z sx sy sz sz', (x ++ z, p.1) ∈ T1 ∧ (y ++ z, p.2) ∈ T2 ∧ sections S1 x = some sx ∧ sections S2 y = some sy ∧
      sections C1 z = some sz ∧ sections C2 z = some sz' ∧ charge sx + charge sy = a.rule + b.rule ∧
      p.1.dims = [(sx.map Prod.fst).prod, (sz.map Prod.fst).prod] ∧ p.2.dims = [(sz.map Prod.fst).prod, (sy.map Prod.fst).prod] := by
  intro p hp
  simp only [pairsList, List.mem_filterMap, Option.map_eq_some_iff] at hp
  obtain ⟨⟨k, A⟩, hA, B, hB, rfl⟩ := hp
  obtain ⟨hA1, hA2⟩ := List.mem_filter.mp hA
  obtain ⟨⟨k2, B'⟩, hB1, hB2⟩ := List.mem_map.mp (mem_of_lookup hB)
  simp only [Prod.mk.injEq] at hB2
  obtain ⟨hBk, rfl⟩ := hB2
  obtain ⟨hB1', hB2⟩ := List.mem_filter.mp hB1
  have e1 : headKey dl k = x := by simpa using hA2
  have e2 : headKey dl k2 = y := by simpa using hB2
  obtain ⟨x', z, sx, sz, rfl, g1, g2, g3, g4⟩ := h1.mem k A hA1
  obtain ⟨y', z', sy, sz', rfl, q1, q2, q3, q4⟩ := h2.mem k2 B' hB1'
  have hz : z.length = dl := by rw [(sections_length g2).1, hdl]
  have hz' : z'.length = dl := by rw [(sections_length q2).1, ← hdl, ← hc.length_eq]
  rw [headKey_append hz] at e1
  rw [headKey_append hz'] at e2
  rw [tailKey_append hz, tailKey_append hz'] at hBk
  subst e1; subst e2; subst hBk
  obtain ⟨w1, w2⟩ := Contractible.sections hc g2 q2
  refine ⟨z', sx, sy, sz, sz', hA1, hB1', g1, q1, g2, q2, ?_, ?_, ?_⟩
  · rw [← g3, ← q3]
    have : charge sx + charge sz + (charge sy + charge sz') = (charge sx + charge sy) + (charge sz + charge sz') := add_add_add_comm _ _ _ _
    rw [this, w2, add_zero]
  · simpa using g4
  · rw [← w1]; simpa using q4

/-- Output block of a pair of outer indices. -/
def outVal (S1 S2 : Shape G) (T1 T2 : FM (List Nat) (Blk R)) (dl : Nat) (x y : List Nat) : Option (KB R) :=
  let ps := pairsList dl (col dl T1 x) (col dl T2 y)
  if ps = [] then none else some (x ++ y, outBlk (secSizes S1 x) (secSizes S2 y) ps)

theorem outVal_key {S1 S2 : Shape G} {T1 T2 : FM (List Nat) (Blk R)} {dl : Nat} {x y : List Nat} {e}
    (h : outVal S1 S2 T1 T2 dl x y = some e) : e.1 = x ++ y := by
  simp only [outVal] at h
  split at h
  · cases h
  · cases h; rfl

/-- All output blocks, in the order the loops make them. -/
def outAll (S1 S2 : Shape G) (T1 T2 : FM (List Nat) (Blk R)) (dl : Nat) : FM (List Nat) (Blk R) :=
  (heads dl T1).flatMap fun x => (heads dl T2).filterMap fun y => outVal S1 S2 T1 T2 dl x y

section final
variable {a b : BT G R} {da db : List Nat} {S1 S2 C1 C2 : Shape G} {T1 T2 : FM (List Nat) (Blk R)} {dl : Nat}
    (h1 : Operand a da S1 C1 false T1) (h2 : Operand b db S2 C2 true T2) (hc : Contractible C1 C2) (hdl : C1.length = dl)

include h1 h2 hc hdl

theorem outVal_mem {x y : List Nat} {e} (h : outVal S1 S2 T1 T2 dl x y = some e) :
    ∃ secs, sections (S1 ++ S2) e.1 = some secs ∧ charge secs = a.rule + b.rule ∧ e.2.dims = secs.map Prod.fst ∧
      x ∈ heads dl T1 ∧ y ∈ heads dl T2 := by
  simp only [outVal] at h
  split at h
  · cases h
  · rename_i hne
    cases h
    obtain ⟨p, hp⟩ := List.exists_mem_of_ne_nil _ hne
    obtain ⟨z, sx, sy, sz, sz', m1, m2, s1, s2, s3, s4, hch, _⟩ := pair_facts h1 h2 hc hdl p hp
    have hz : z.length = dl := by rw [(sections_length s3).1, hdl]
    refine ⟨sx ++ sy, sections_append s1 s2, ?_, ?_, ?_, ?_⟩
    · rw [charge_append, hch]
    · simp only [outBlk, secSizes_eq s1, secSizes_eq s2, List.map_append]
    · exact mem_heads_iff.mpr ⟨_, m1, headKey_append hz⟩
    · exact mem_heads_iff.mpr ⟨_, m2, headKey_append hz⟩

theorem mem_outAll {e : KB R} : e ∈ outAll S1 S2 T1 T2 dl ↔ ∃ x y, outVal S1 S2 T1 T2 dl x y = some e := by
  simp only [outAll, List.mem_flatMap, List.mem_filterMap]
  constructor
  · rintro ⟨x, _, y, _, h⟩; exact ⟨x, y, h⟩
  · rintro ⟨x, y, h⟩
    obtain ⟨_, _, _, _, hx, hy⟩ := outVal_mem h1 h2 hc hdl h
    exact ⟨x, hx, y, hy, h⟩

theorem heads_length {x : List Nat} : (x ∈ heads dl T1 → x.length = S1.length) ∧ (x ∈ heads dl T2 → x.length = S2.length) := by
  constructor
  · intro hx
    obtain ⟨⟨k, M⟩, he, rfl⟩ := mem_heads_iff.mp hx
    obtain ⟨x, z, sx, sz, rfl, g1, g2, _⟩ := h1.mem k M he
    rw [headKey_append (by rw [(sections_length g2).1, hdl]), (sections_length g1).1]
  · intro hx
    obtain ⟨⟨k, M⟩, he, rfl⟩ := mem_heads_iff.mp hx
    obtain ⟨x, z, sx, sz, rfl, g1, g2, _⟩ := h2.mem k M he
    rw [headKey_append (by rw [(sections_length g2).1, ← hdl, ← hc.length_eq]), (sections_length g1).1]

theorem outAll_nodup : ((outAll S1 S2 T1 T2 dl).map Prod.fst).Nodup := by
  rw [outAll, List.map_flatMap, List.nodup_flatMap]
  constructor
  · intro x _
    rw [List.map_filterMap]
    refine List.Nodup.filterMap ?_ (heads_nodup dl _ T2 (le_refl _))
    intro y y' k hy hy'
    simp only [Option.mem_def, Option.map_eq_some_iff] at hy hy'
    obtain ⟨e, he, rfl⟩ := hy
    obtain ⟨e', he', hk⟩ := hy'
    rw [outVal_key he, outVal_key he'] at hk
    exact (List.append_cancel_left hk).symm
  · have hnd := heads_nodup dl _ T1 (le_refl _)
    refine List.Pairwise.imp_of_mem ?_ hnd
    intro x x' hx hx' hne k hk hk'
    simp only [List.mem_map, List.mem_filterMap] at hk hk'
    obtain ⟨e, ⟨y, hy, he⟩, rfl⟩ := hk
    obtain ⟨e', ⟨y', hy', he'⟩, hk'⟩ := hk'
    rw [outVal_key he, outVal_key he'] at hk'
    exact hne (List.append_inj hk'.symm (by
      rw [(heads_length h1 h2 hc hdl).1 hx, (heads_length h1 h2 hc hdl).1 hx'])).1

theorem outAll_length : (outAll S1 S2 T1 T2 dl).length ≤ (secCounts (S1 ++ S2)).prod := by
  have hsub : (outAll S1 S2 T1 T2 dl).map Prod.fst ⊆ allIdx (secCounts (S1 ++ S2)) := by
    intro k hk
    obtain ⟨e, he, rfl⟩ := List.mem_map.mp hk
    obtain ⟨x, y, hxy⟩ := (mem_outAll h1 h2 hc hdl).mp he
    obtain ⟨secs, hs, _⟩ := outVal_mem h1 h2 hc hdl hxy
    exact mem_allIdx.mpr (sections_inRange hs)
  have := (List.subperm_of_subset (outAll_nodup h1 h2 hc hdl) hsub).length_le
  rwa [List.length_map, allIdx_length] at this

theorem outAll_conserving : Conserving (S1 ++ S2) (a.rule + b.rule) (sortKeys (outAll S1 S2 T1 T2 dl)) := by
  refine ⟨sortKeys_sorted (outAll_nodup h1 h2 hc hdl), ?_⟩
  intro k v hk
  rw [(sortKeys_perm _).mem_iff] at hk
  obtain ⟨x, y, hxy⟩ := (mem_outAll h1 h2 hc hdl).mp hk
  obtain ⟨secs, g1, g2, g3, _⟩ := outVal_mem h1 h2 hc hdl hxy
  exact ⟨secs, g1, g2, g3⟩

theorem outAll_lookup {x y : List Nat} (hx : x.length = S1.length) :
    lookup (sortKeys (outAll S1 S2 T1 T2 dl)) (x ++ y) = (outVal S1 S2 T1 T2 dl x y).map Prod.snd := by
  have hs := (outAll_conserving h1 h2 hc hdl).sorted
  rcases hv : outVal S1 S2 T1 T2 dl x y with _ | e
  · rw [Option.map_none, lookup_eq_none]
    intro e he hk
    rw [(sortKeys_perm _).mem_iff] at he
    obtain ⟨x', y', hxy⟩ := (mem_outAll h1 h2 hc hdl).mp he
    rw [outVal_key hxy] at hk
    obtain ⟨_, _, _, _, hx', _⟩ := outVal_mem h1 h2 hc hdl hxy
    obtain ⟨rfl, rfl⟩ := List.append_inj hk (by rw [hx, (heads_length h1 h2 hc hdl).1 hx'])
    rw [hv] at hxy; cases hxy
  · rw [Option.map_some, lookup_iff_mem hs, (sortKeys_perm _).mem_iff, ← outVal_key hv]
    exact (mem_outAll h1 h2 hc hdl).mpr ⟨x, y, hv⟩

/-- The dense entries of the result. -/
theorem outAll_entry {ea eb : List Nat} (hea : InRange ea (S1.map dimSize)) (heb : InRange eb (S2.map dimSize)) :
    entry (S1 ++ S2) (sortKeys (outAll S1 S2 T1 T2 dl)) (ea ++ eb) =
      ((indices (C1.map dimSize)).map fun c =>
        entry a.shape a.blocks (place da ea c) * entry b.shape b.blocks (place db eb c)).sum := by
  obtain ⟨⟨x, ox⟩, hlx⟩ := locateAll_isSome.mpr hea
  obtain ⟨⟨y, oy⟩, hly⟩ := locateAll_isSome.mpr heb
  obtain ⟨sx, hsx, hox⟩ := locateAll_sections hlx
  obtain ⟨sy, hsy, hoy⟩ := locateAll_sections hly
  -- left side
  have hlhs : entry (S1 ++ S2) (sortKeys (outAll S1 S2 T1 T2 dl)) (ea ++ eb) =
      ((pairsList dl (col dl T1 x) (col dl T2 y)).map fun p => mmEntry p (flat (secSizes S1 x) ox) (flat (secSizes S2 y) oy)).sum := by
    simp only [entry, locateAll_append hlx hly, outAll_lookup h1 h2 hc hdl (locateAll_length hlx).2.1]
    simp only [outVal]
    split
    · rename_i hnone
      simp only [Option.map_eq_none_iff] at hnone
      split at hnone
      · rename_i hnil; rw [hnil]; rfl
      · cases hnone
    · rename_i blk hsome
      split at hsome
      · cases hsome
      · simp only [Option.map_some, Option.some.injEq] at hsome
        subst hsome
        rw [outBlk_f]
        · rw [secSizes_eq hsx]; exact hox
        · rw [secSizes_eq hsy]; exact hoy
  rw [hlhs, indices_eq]
  -- right side: a sum over grid positions and offsets
  generalize hF : (fun q : Option (List Nat × List Nat) => match q with
    | none => (0 : R)
    | some (z, oz) =>
      (match lookup T1 (x ++ z) with | none => 0 | some M => M.f [flat (secSizes S1 x) ox, flat (secSizes C1 z) oz]) *
      (match lookup T2 (y ++ z) with | none => 0 | some M => M.f [flat (secSizes C2 z) oz, flat (secSizes S2 y) oy])) = F
  have hrhs : ∀ c ∈ allIdx (C1.map dimSize),
      entry a.shape a.blocks (place da ea c) * entry b.shape b.blocks (place db eb c) = F (locateAll C1 c) := by
    intro c hcm
    obtain ⟨⟨z, oz⟩, hlz⟩ := locateAll_isSome.mpr (mem_allIdx.mp hcm)
    have e1 := h1.entry ea c x ox z oz hlx hlz
    have e2 := h2.entry eb c y oy z oz hly (by rw [← Contractible.locateAll hc]; exact hlz)
    rw [e1, e2, hlz, ← hF]
    simp only [Bool.false_eq_true, if_false, if_true]
    congr 1
  rw [sum_congr' hrhs, sum_locateAll]
  -- at one grid position
  have hz : ∀ z ∈ allIdx (secCounts C1), ((allIdx (secSizes C1 z)).map fun o => F (some (z, o))).sum =
      match lookup ((col dl T1 x).map fun e => (tailKey dl e.1, e.2)) z with
      | some A => (match lookup ((col dl T2 y).map fun e => (tailKey dl e.1, e.2)) z with
        | some B => mmEntry (A, B) (flat (secSizes S1 x) ox) (flat (secSizes S2 y) oy)
        | none => 0)
      | none => 0 := by
    intro z hzm
    obtain ⟨sz, hsz⟩ := sections_of_inRange (mem_allIdx.mp hzm)
    obtain ⟨sz', hsz', hss⟩ := Contractible.secSizes hc hsz
    have hzl : z.length = dl := by rw [(sections_length hsz).1, hdl]
    rw [lookup_col h1.sorted ?_ hzl, lookup_col h2.sorted ?_ hzl]
    · simp only [← hF, hss]
      rcases hA : lookup T1 (x ++ z) with _ | A
      · simp only [zero_mul]; exact sum_map_zero' _
      · rcases hB : lookup T2 (y ++ z) with _ | B
        · simp only [mul_zero]; exact sum_map_zero' _
        · obtain ⟨x', z', sx', sz'', he, g1, g2, _, g4⟩ := h1.mem _ _ (mem_of_lookup hA)
          obtain ⟨_, rfl⟩ := List.append_inj' he (by rw [(sections_length g2).1, hzl, hdl])
          rw [hsz] at g2; cases g2
          simp only [mmEntry, g4, Bool.false_eq_true, if_false]
          simp only [List.getD_cons_succ, List.getD_cons_zero, ← secSizes_eq hsz]
          rw [allIdx_eq, List.map_map]
          apply sum_congr'
          intro k hk
          simp only [Function.comp, flat_unflat (List.mem_range.mp hk)]
    · rintro ⟨k, M⟩ he
      obtain ⟨x', z', sx', sz'', rfl, g1, g2, _⟩ := h2.mem _ _ he
      simp only [List.length_append, (sections_length g2).1, ← hdl, hc.length_eq]; omega
    · rintro ⟨k, M⟩ he
      obtain ⟨x', z', sx', sz'', rfl, g1, g2, _⟩ := h1.mem _ _ he
      simp only [List.length_append, (sections_length g2).1, ← hdl]; omega
  rw [sum_congr' hz, sum_pairsList]
  have hfin := (sum_lookup (R := R) (A := (col dl T1 x).map fun e => (tailKey dl e.1, e.2)) (allIdx_nodup (secCounts C1)) (fun z A => match lookup ((col dl T2 y).map fun e => (tailKey dl e.1, e.2)) z with
        | some B => mmEntry (A, B) (flat (secSizes S1 x) ox) (flat (secSizes S2 y) oy)
        | none => 0) ?_ ?_).symm
  · convert hfin using 2
    refine List.map_congr_left fun z _ => ?_
    generalize lookup ((col dl T1 x).map fun e => (tailKey dl e.1, e.2)) z = q
    cases q <;> rfl
  · have hts : TailSorted dl (col dl T1 x) := by
      have h1' : (col dl T1 x).Pairwise fun a b => a.1 < b.1 := List.Pairwise.sublist List.filter_sublist h1.sorted
      refine List.Pairwise.imp_of_mem ?_ h1'
      intro a b ha hb hab
      have ha' := of_decide_eq_true (List.mem_filter.mp ha).2
      have hb' := of_decide_eq_true (List.mem_filter.mp hb).2
      rw [← head_tail dl a.1, ← head_tail dl b.1, ha', hb', lex_append rfl] at hab
      rcases hab with h | h
      · exact absurd h (lt_irrefl _)
      · exact h.2
    rw [List.map_map, List.Nodup, List.pairwise_map]
    exact List.Pairwise.imp (fun h => ne_of_lt h) hts
  · intro e he
    obtain ⟨⟨k, M⟩, hm, rfl⟩ := List.mem_map.mp he
    obtain ⟨hm, _⟩ := List.mem_filter.mp hm
    obtain ⟨x', z', sx', sz'', rfl, g1, g2, _⟩ := h1.mem _ _ hm
    simp only
    rw [tailKey_append (by rw [(sections_length g2).1, hdl])]
    exact mem_allIdx.mpr (sections_inRange g2)

/-- The loops compute `outAll`. -/
theorem loops_eq (out : BT G R) (hout : out.shape = S1 ++ S2)
    (hS1 : ∀ d ∈ S1, d.length ≤ int64Max) (hC1 : ∀ d ∈ C1, d.length ≤ int64Max)
    (hS2 : ∀ d ∈ S2, d.length ≤ int64Max) (hC2 : ∀ d ∈ C2, d.length ≤ int64Max)
    (hne : T1 = [] ∨ (0 < S1.length + C1.length ∧ (T2 = [] ∨ 0 < S2.length + C2.length)))
    (fuel : Nat) (hf : T1.length + T2.length ≤ fuel) (cap : Nat) (hcap : (secCounts (S1 ++ S2)).prod ≤ cap) :
    outerLoop dl out cap T2 fuel T1 [] = some (.ok (outAll S1 S2 T1 T2 dl)) := by
  rcases hne with rfl | ⟨hn1, hne⟩
  · cases fuel <;> simp [outerLoop, outAll, heads]
  · have hk1 := h1.keyed hS1 hC1
    have hk2 := h2.keyed hS2 hC2
    have hlen := outAll_length h1 h2 hc hdl
    have hdl2 : C2.length = dl := by rw [← hc.length_eq, hdl]
    rw [outerLoop_eq (val := fun x => (heads dl T2).filterMap fun y => outVal S1 S2 T1 T2 dl x y) hn1 (by omega) fuel T1 [] hk1 hf]
    · simp [outAll]
    · simp only [List.length_nil, Nat.zero_add]
      exact le_trans hlen hcap
    · intro e he fuel' acc' hf' hc'
      rcases hne with rfl | hn2
      · cases fuel' <;> simp [innerLoop, heads]
      · refine innerLoop_eq hn2 (by omega) fuel' T2 acc' hk2 hf' hc' ?_
        intro e' he' acc''
        rw [pairStep_eq (col_tailSorted hk1 _) (col_tailSorted hk2 _)]
        obtain ⟨x, z, sx, sz, hx, g1, g2, _⟩ := h1.mem e.1 e.2 he
        obtain ⟨y, z', sy, sz', hy, q1, q2, _⟩ := h2.mem e'.1 e'.2 he'
        have ex : headKey dl e.1 = x := by rw [hx, headKey_append (by rw [(sections_length g2).1, hdl])]
        have ey : headKey dl e'.1 = y := by rw [hy, headKey_append (by rw [(sections_length q2).1, hdl2])]
        rw [ex, ey, pairResult_eq (sx := secSizes S1 x) (sy := secSizes S2 y) (secs := sx ++ sy)]
        · simp only [outVal]
          split <;> simp
        · intro _
          rw [hout, secSizes_eq g1, secSizes_eq q1, List.map_append]
          exact ⟨sections_append g1 q1, rfl⟩
        · intro p hp
          obtain ⟨w, sx', sy', sw, sw', m1, m2, s1, s2, s3, s4, hch, d1, d2⟩ := pair_facts h1 h2 hc hdl p hp
          rw [g1] at s1; cases s1
          rw [q1] at s2; cases s2
          rw [secSizes_eq g1, secSizes_eq q1]
          exact ⟨_, d1, d2⟩

end final

end QuantiT.BT
