import Verif.Lemmas.Bmm
import Verif.Spec.Bmm
import Verif.Props.View
import Verif.Lemmas.Broadcast
/-
`bmm`: the shape of the result, its blocks and its entries.
-/
set_option linter.unusedSectionVars false
namespace QuantiT.BT
open QuantiT.Spec
variable {G R : Type}

/-! ### Shapes -/

theorem swapLast_append (x : List Nat) (i j : Nat) : swapLast (x ++ [i, j]) = x ++ [j, i] := by
  unfold swapLast
  rw [headKey_append (by simp)]
  simp [List.getD_eq_getElem?_getD]

theorem SameSizes.length_eq {s s' : Shape G} (h : SameSizes s s') : s.length = s'.length := by
  have := congrArg List.length h; simpa using this

theorem sameSizes_cons {d d' : Dim G} {s s' : Shape G} : SameSizes (d :: s) (d' :: s') ↔ d.map Prod.fst = d'.map Prod.fst ∧ SameSizes s s' := by
  simp [SameSizes]

theorem joinCharges_sizes [Add G] {d d' : Dim G} (h : d.map Prod.fst = d'.map Prod.fst) :
    (List.zipWith (fun x y => (x.1, x.2 + y.2)) d d').map Prod.fst = d.map Prod.fst := by
  have hl : d.length = d'.length := by have := congrArg List.length h; simpa using this
  apply List.ext_getElem
  · simp [hl]
  · intro i h1 h2; simp

theorem locateAll_sizes {s s' : Shape G} (h : SameSizes s s') (e : List Nat) : locateAll s e = locateAll s' e := by
  induction s generalizing s' e with
  | nil => cases s' <;> simp [SameSizes] at h; rfl
  | cons d s ih =>
    cases s' with
    | nil => simp [SameSizes] at h
    | cons d' s' =>
      obtain ⟨h1, h2⟩ := sameSizes_cons.1 h
      cases e with
      | nil => rfl
      | cons x e => simp only [locateAll, locate_sizes h1, ih h2]

theorem joinCharges_same [Add G] {s s' : Shape G} (h : SameSizes s s') : SameSizes (joinCharges s s') s := by
  induction s generalizing s' with
  | nil => simp [joinCharges, SameSizes]
  | cons d s ih =>
    cases s' with
    | nil => simp [SameSizes] at h
    | cons d' s' =>
      obtain ⟨h1, h2⟩ := sameSizes_cons.1 h
      exact sameSizes_cons.2 ⟨joinCharges_sizes h1, ih h2⟩

/-- The sections of the three shapes at the same block index. -/
theorem sections_join [AddCommMonoid G] {s s' : Shape G} (h : SameSizes s s') {k : List Nat} {r r'} (h1 : sections s k = some r)
    (h2 : sections s' k = some r') : ∃ t, sections (joinCharges s s') k = some t ∧ t.map Prod.fst = r.map Prod.fst ∧
      r'.map Prod.fst = r.map Prod.fst ∧ charge t = charge r + charge r' := by
  induction s generalizing s' k r r' with
  | nil =>
    cases s' <;> simp [SameSizes] at h
    cases k <;> simp [sections] at h1 h2
    subst h1; subst h2
    exact ⟨[], rfl, rfl, rfl, by simp [charge]⟩
  | cons d s ih =>
    cases s' with
    | nil => simp [SameSizes] at h
    | cons d' s' =>
      obtain ⟨g1, g2⟩ := sameSizes_cons.1 h
      cases k with
      | nil => simp [sections] at h1
      | cons b k =>
        obtain ⟨x, q, e1, e2, rfl⟩ := sections_cons.1 h1
        obtain ⟨x', q', e1', e2', rfl⟩ := sections_cons.1 h2
        obtain ⟨t, t1, t2, t3, t4⟩ := ih g2 e2 e2'
        have hx : x'.1 = x.1 := by
          have := congrArg (·[b]?) g1
          simp only [List.getElem?_map, e1, e1', Option.map_some, Option.some.injEq] at this
          exact this.symm
        refine ⟨(x.1, x.2 + x'.2) :: t, sections_cons.2 ⟨_, _, by simp [List.getElem?_zipWith, e1, e1'], t1, rfl⟩, by simp [t2], by simp [t3, hx], ?_⟩
        simp only [charge, List.map_cons, List.sum_cons] at t4 ⊢
        rw [t4]; abel

theorem kept_append {s s' : Shape G} {p p' : List Int} (h : s.length = p.length) : kept (s ++ s') (p ++ p') = kept s p ++ kept s' p' := by
  induction s generalizing p with
  | nil => cases p <;> simp at h; rfl
  | cons d s ih =>
    cases p with
    | nil => simp at h
    | cons a p =>
      simp only [List.cons_append, kept]
      rw [ih (by simpa using h)]
      split <;> simp

theorem kept_free (s : Shape G) : kept s (List.replicate s.length (-1)) = s := by
  induction s with
  | nil => rfl
  | cons d s ih => simp only [List.length_cons, List.replicate_succ, kept, if_true, ih]

theorem kept_fixed (s : Shape G) : kept s (List.replicate s.length 0) = [] := by
  induction s with
  | nil => rfl
  | cons d s ih => simp only [List.length_cons, List.replicate_succ, kept]; simpa using ih

theorem picks_free (s : Shape G) : Picks s (List.replicate s.length (-1)) := by
  unfold Picks
  induction s with
  | nil => exact .nil
  | cons d s ih => exact .cons (.inl rfl) ih

theorem picks_zero {s : Shape G} (h : NonEmpty s) : Picks s (List.replicate s.length 0) := by
  unfold Picks
  induction s with
  | nil => exact .nil
  | cons d s ih =>
    refine .cons (.inr ⟨le_refl _, ?_⟩) (ih fun d hd => h d (by simp [hd]))
    exact_mod_cast h d (by simp)

theorem nonEmpty_populated {s : Shape G} (h : NonEmpty s) : Populated s := by
  rintro d hd rfl
  exact absurd (h _ hd) (by simp [dimSize])

section
variable [AddCommGroup G] [DecidableEq G]

theorem shapeDim_same {d d' : Dim G} (h : d.map Prod.fst = d'.map Prod.fst) :
    ∃ n, shapeDim d' d = .ok (n, List.zipWith (fun x y => (x.1, x.2 + y.2)) d d') := by
  have hl : d.length = d'.length := by have := congrArg List.length h; simpa using this
  refine ⟨maskDim d' d, ?_⟩
  unfold shapeDim
  simp only [bind, Except.bind]
  rw [if_neg (by rintro ⟨_, h2⟩; exact h2 hl), if_neg (by omega), addCharges_same hl]

theorem shapeCompute_same {s s' : Shape G} (h : SameSizes s s') (r r' : G) (bl bl' : FM (List Nat) (Blk R)) :
    ∃ m, shapeCompute (⟨s', r', bl'⟩ : BT G R) ⟨s, r, bl⟩ = .ok (m, joinCharges s s', r' + r) := by
  have hl := SameSizes.length_eq h
  have : ∃ m : List Nat, (s'.zip s).mapM (fun p => shapeDim p.1 p.2) = .ok (m.zip (joinCharges s s')) ∧ m.length = s.length := by
    clear hl
    induction s generalizing s' with
    | nil => cases s' <;> simp [SameSizes] at h; exact ⟨[], rfl, rfl⟩
    | cons d s ih =>
      cases s' with
      | nil => simp [SameSizes] at h
      | cons d' s' =>
        obtain ⟨h1, h2⟩ := sameSizes_cons.1 h
        obtain ⟨m, m1, m2⟩ := ih h2
        obtain ⟨n, hn⟩ := shapeDim_same h1
        refine ⟨n :: m, ?_, by simp [m2]⟩
        rw [List.zip_cons_cons, List.mapM_cons, hn]
        simp only [bind, Except.bind, m1, pure, Except.pure]
        rfl
  obtain ⟨m, m1, m2⟩ := this
  have hj : (joinCharges s s').length = s.length := by simp [joinCharges, hl]
  refine ⟨m, ?_⟩
  simp only [shapeCompute, hl, Nat.sub_self, List.drop_zero, m1, bind, Except.bind, List.take_zero, List.nil_append]
  rw [List.map_fst_zip (by omega), List.map_snd_zip (by omega)]

theorem bmmShape_eq {a b : BT G R} {BA BB : Shape G} {ra ca rb cb : Dim G} (ha : a.shape = BA ++ [ra, ca]) (hb : b.shape = BB ++ [rb, cb])
    (hB : SameSizes BA BB) (hna : NonEmpty a.shape) (hnb : NonEmpty b.shape) :
    bmmShape a b = .ok ⟨joinCharges BA BB ++ [ra, cb], a.rule + b.rule, []⟩ := by
  have hl := SameSizes.length_eq hB
  have hn : a.shape.length - 2 = BA.length := by rw [ha]; simp
  have hpos : ∀ d ∈ [ra, ca], (0 : Int) < dimSize d := fun d hd => by exact_mod_cast hna d (by rw [ha]; simp at hd ⊢; tauto)
  have hpos' : ∀ d ∈ [rb, cb], (0 : Int) < dimSize d := fun d hd => by exact_mod_cast hnb d (by rw [hb]; simp at hd ⊢; tauto)
  have p1 : Picks a.shape (List.replicate BA.length (-1) ++ [0, 0]) := by
    rw [ha]; exact List.rel_append (picks_free BA) (.cons (.inr ⟨le_refl _, hpos _ (by simp)⟩) (.cons (.inr ⟨le_refl _, hpos _ (by simp)⟩) .nil))
  have p2 : Picks b.shape (List.replicate BA.length (-1) ++ [0, 0]) := by
    rw [hb, hl]; exact List.rel_append (picks_free BB) (.cons (.inr ⟨le_refl _, hpos' _ (by simp)⟩) (.cons (.inr ⟨le_refl _, hpos' _ (by simp)⟩) .nil))
  have p3 : Picks a.shape (List.replicate BA.length 0 ++ [-1, 0]) := by
    rw [ha]; exact List.rel_append (picks_zero fun d hd => hna d (by rw [ha]; simp [hd])) (.cons (.inl rfl) (.cons (.inr ⟨le_refl _, hpos _ (by simp)⟩) .nil))
  have p4 : Picks b.shape (List.replicate BA.length 0 ++ [0, -1]) := by
    rw [hb, hl]; exact List.rel_append (picks_zero fun d hd => hnb d (by rw [hb]; simp [hd])) (.cons (.inr ⟨le_refl _, hpos' _ (by simp)⟩) (.cons (.inl rfl) .nil))
  have k1 : kept a.shape (List.replicate BA.length (-1) ++ [0, 0]) = BA := by
    rw [ha, kept_append (by simp), kept_free]; simp [kept]
  have k2 : kept b.shape (List.replicate BA.length (-1) ++ [0, 0]) = BB := by
    rw [hb, hl, kept_append (by simp), kept_free]; simp [kept]
  have k3 : kept a.shape (List.replicate BA.length 0 ++ [-1, 0]) = [ra] := by
    rw [ha, kept_append (by simp), kept_fixed]; simp [kept]
  have k4 : kept b.shape (List.replicate BA.length 0 ++ [0, -1]) = [cb] := by
    rw [hb, hl, kept_append (by simp), kept_fixed]; simp [kept]
  unfold bmmShape
  simp only [hn, shapeFrom_eq p1 (nonEmpty_populated hna), shapeFrom_eq p2 (nonEmpty_populated hnb), shapeFrom_eq p3 (nonEmpty_populated hna), shapeFrom_eq p4 (nonEmpty_populated hnb),
    k1, k2, k3, k4, bind, Except.bind]
  obtain ⟨m, hm⟩ := shapeCompute_same (R := R) hB (a.rule - fixedCharge a.shape (List.replicate BA.length (-1) ++ [0, 0]))
    (b.rule - fixedCharge b.shape (List.replicate BA.length (-1) ++ [0, 0])) [] []
  simp only [hm, shapeFromList, List.foldlM_cons, List.foldlM_nil, tensorProductShape_eq, bind, Except.bind, pure, Except.pure]
  simp

/-- Compatible operands pass the check. -/
theorem bmmCheck_ok {BA BB : Shape G} {ra ca rb cb : Dim G} (hB : SameSizes BA BB) (hc : Contractible [ca] [rb]) (hne : ca ≠ []) :
    bmmCheck (BA ++ [ra, ca]) (BB ++ [rb, cb]) = .ok () := by
  have hl := SameSizes.length_eq hB
  have hf : List.Forall₂ (fun (s s' : Nat × G) => s.1 = s'.1 ∧ s.2 + s'.2 = 0) ca rb := by cases hc; assumption
  have t1 : (BA ++ [ra, ca]).take ((BA ++ [ra, ca]).length - 2) = BA := by simp
  have t2 : (BB ++ [rb, cb]).take ((BB ++ [rb, cb]).length - 2) = BB := by simp
  have hsz : ca.map Prod.fst = rb.map Prod.fst := by
    clear hc hne
    induction hf with
    | nil => rfl
    | cons h _ ih => simp [h.1, ih]
  have hch : (ca.zip rb).all (fun ss => decide (ss.1.2 + ss.2.2 = 0)) = true := by
    clear hc hne hsz
    induction hf with
    | nil => rfl
    | cons h _ ih => simp [h.2]; simpa using ih
  unfold bmmCheck
  rw [if_neg (by simp [hl]), if_neg (by simp), t1, t2]
  have hcnt : secCounts BA = secCounts BB := by
    have := congrArg (List.map List.length) hB
    simpa [secCounts, Function.comp_def] using this
  have hfl : BA.flatten.map Prod.fst = BB.flatten.map Prod.fst := by
    rw [List.map_flatten, List.map_flatten, hB]
  rw [if_neg (not_not.2 hcnt), if_neg (not_not.2 hfl)]
  have g1 : (BA ++ [ra, ca])[(BA ++ [ra, ca]).length - 1]? = some ca := by simp
  have g2 : (BB ++ [rb, cb])[(BA ++ [ra, ca]).length - 2]? = some rb := by simp [hl]
  simp only [g1, g2]
  rw [if_neg (not_not.2 hf.length_eq), if_neg (not_not.2 hsz), if_neg hne, if_pos hch]

end

/-! ### Blocks and entries -/

section
variable [AddCommMonoid G] [DecidableEq G] [Semiring R]

/-- The sections of a block index of a batch of matrices. -/
theorem sections_mat {B : Shape G} {r c : Dim G} {k : List Nat} {secs} (h : sections (B ++ [r, c]) k = some secs) :
    ∃ x i j sx si sj, k = x ++ [i, j] ∧ sections B x = some sx ∧ r[i]? = some si ∧ c[j]? = some sj ∧ secs = sx ++ [si, sj] := by
  obtain ⟨x, y, sx, sy, rfl, rfl, h1, h2⟩ := sections_append_inv h
  cases y with
  | nil => simp [sections] at h2
  | cons i y =>
    obtain ⟨si, q, g1, g2, rfl⟩ := sections_cons.1 h2
    cases y with
    | nil => simp [sections] at g2
    | cons j y =>
      obtain ⟨sj, q', g3, g4, rfl⟩ := sections_cons.1 g2
      cases y with
      | cons _ _ => simp [sections] at g4
      | nil =>
        simp only [sections, Option.some.injEq] at g4
        subst g4
        exact ⟨x, i, j, sx, si, sj, rfl, h1, g1, g3, rfl⟩

theorem mem_pairs {k : List Nat} {A B : FM (List Nat) (Blk R)} {p} (h : p ∈ cellPairs A B k) :
    ∃ ka kb, (ka, p.1) ∈ A ∧ (kb, p.2) ∈ B ∧ headKey 1 ka = headKey 1 k ∧ headKey 1 kb = headKey 2 k ++ tailKey 1 k ∧
      tailKey 1 ka = tailKey 1 kb := by
  obtain ⟨a, ha, hp⟩ := List.mem_filterMap.1 h
  obtain ⟨ha1, ha2⟩ := List.mem_filter.1 ha
  rw [Option.map_eq_some_iff] at hp
  obtain ⟨b, hb, rfl⟩ := hp
  obtain ⟨e, he, he'⟩ := List.mem_map.1 (mem_of_lookup hb)
  obtain ⟨he1, he2⟩ := List.mem_filter.1 he
  simp only [Prod.mk.injEq] at he'
  obtain ⟨q1, rfl⟩ := he'
  exact ⟨a.1, e.1, ha1, he1, by simpa using ha2, by simpa using he2, q1.symm⟩

variable {a b : BT G R} {BA BB : Shape G} {ra ca rb cb : Dim G}

theorem mem_bmmSort (hc : Conserving (BB ++ [rb, cb]) b.rule b.blocks) {k : List Nat} {v : Blk R} (h : (k, v) ∈ bmmSort b.blocks) :
    ∃ x i j sx si sj, k = x ++ [j, i] ∧ (x ++ [i, j], v) ∈ b.blocks ∧ sections BB x = some sx ∧ rb[i]? = some si ∧ cb[j]? = some sj ∧
      charge sx + (si.2 + sj.2) = b.rule ∧ v.dims = sx.map Prod.fst ++ [si.1, sj.1] := by
  rw [bmmSort, (sortKeys_perm _).mem_iff, List.mem_map] at h
  obtain ⟨⟨k', v'⟩, h1, h2⟩ := h
  simp only [Prod.mk.injEq] at h2
  obtain ⟨rfl, rfl⟩ := h2
  obtain ⟨secs, s1, s2, s3⟩ := hc.block _ _ h1
  obtain ⟨x, i, j, sx, si, sj, rfl, g1, g2, g3, rfl⟩ := sections_mat s1
  refine ⟨x, i, j, sx, si, sj, swapLast_append _ _ _, h1, g1, g2, g3, ?_, by rw [s3]; simp⟩
  rw [← s2, charge_append]; simp [charge]

theorem bmmSort_spec (hc : Conserving (BB ++ [rb, cb]) b.rule b.blocks) :
    Sorted (bmmSort b.blocks) ∧ ∀ x i j, lookup (bmmSort b.blocks) (x ++ [j, i]) = lookup b.blocks (x ++ [i, j]) := by
  have hk : ∀ y ∈ b.blocks, ∀ x i j, swapLast y.1 = swapLast (x ++ [i, j]) → y.1 = x ++ [i, j] := by
    rintro ⟨k, v⟩ hy x i j h
    obtain ⟨secs, s1, _⟩ := hc.block _ _ hy
    obtain ⟨x', i', j', _, _, _, rfl, _⟩ := sections_mat s1
    rw [swapLast_append, swapLast_append] at h
    obtain ⟨rfl, h2⟩ := List.append_inj' h rfl
    simp at h2; simp [h2]
  have hinj : ∀ x ∈ b.blocks, ∀ y ∈ b.blocks, swapLast x.1 = swapLast y.1 → x.1 = y.1 := by
    intro x hx y hy h
    obtain ⟨secs, s1, _⟩ := hc.block y.1 y.2 hy
    obtain ⟨x', i', j', _, _, _, he, _⟩ := sections_mat s1
    rw [he] at h ⊢
    exact hk x hx _ _ _ h
  have main := fun (x : List Nat) (i j : Nat) =>
    lookup_sortKeys_map hc.sorted swapLast (fun v : Blk R => v) (k := x ++ [i, j]) hinj (fun y hy h => hk y hy x i j h)
  refine ⟨(main [] 0 0).1, ?_⟩
  intro x i j
  have := (main x i j).2
  rw [swapLast_append] at this
  simpa [bmmSort] using this

variable (hca : Conserving (BA ++ [ra, ca]) a.rule a.blocks) (hcb : Conserving (BB ++ [rb, cb]) b.rule b.blocks)
  (hB : SameSizes BA BB) (hc : Contractible [ca] [rb])
include hca hcb hB hc

/-- A pair of blocks and its place. -/
theorem cell_pair {k : List Nat} {p} (h : p ∈ cellPairs a.blocks (bmmSort b.blocks) k) :
    ∃ (x : List Nat) (i j : Nat) (sx sy : List (Nat × G)) (si sj sl sl' : Nat × G), k = x ++ [i, j] ∧ sections BA x = some sx ∧ sections BB x = some sy ∧ ra[i]? = some si ∧ cb[j]? = some sj ∧
      sl.1 = sl'.1 ∧ sl.2 + sl'.2 = 0 ∧ charge sx + (si.2 + sl.2) = a.rule ∧ charge sy + (sl'.2 + sj.2) = b.rule ∧
      p.1.dims = sx.map Prod.fst ++ [si.1, sl.1] ∧ p.2.dims = sy.map Prod.fst ++ [sl'.1, sj.1] := by
  have hf : List.Forall₂ (fun (s s' : Nat × G) => s.1 = s'.1 ∧ s.2 + s'.2 = 0) ca rb := by cases hc; assumption
  obtain ⟨ka, kb, h1, h2, h3, h4, h5⟩ := mem_pairs h
  obtain ⟨secs, s1, s2, s3⟩ := hca.block _ _ h1
  obtain ⟨x, i, l, sx, si, sl, rfl, a1, a2, a3, rfl⟩ := sections_mat s1
  obtain ⟨y, l', j, sy, sl', sj, rfl, _, b1, b2, b3, b4, b5⟩ := mem_bmmSort hcb h2
  rw [show x ++ [i, l] = (x ++ [i]) ++ [l] by simp] at h3 h5
  rw [show y ++ [j, l'] = (y ++ [j]) ++ [l'] by simp] at h4 h5
  rw [headKey_append (by rfl)] at h3
  rw [headKey_append (by rfl)] at h4
  rw [tailKey_append (by rfl), tailKey_append (by rfl)] at h5
  simp only [List.cons.injEq, and_true] at h5
  subst h5
  have hk : k ≠ [] := by rintro rfl; simp [headKey] at h3
  have ht : (tailKey 1 k).length = 1 := tailKey_length (List.length_pos_iff.2 hk)
  obtain ⟨rfl, h6⟩ := List.append_inj' h4 (by rw [ht]; rfl)
  have h7 : headKey 2 k = x := by rw [← headKey_headKey, ← h3, headKey_append (by rfl)]
  have hkk : k = x ++ [i, j] := by
    rw [← head_tail 1 k, ← h3, ← h6]; simp
  rw [h7] at b1 
  have hll : sl.1 = sl'.1 ∧ sl.2 + sl'.2 = 0 := by
    obtain ⟨i1, rfl⟩ := List.getElem?_eq_some_iff.mp a3
    obtain ⟨i2, rfl⟩ := List.getElem?_eq_some_iff.mp b2
    exact (List.forall₂_iff_get.mp hf).2 l i1 i2
  refine ⟨x, i, j, sx, sy, si, sj, sl, sl', hkk, a1, b1, a2, b3, hll.1, hll.2, ?_, b4, by rw [s3]; simp, b5⟩
  rw [← s2, charge_append]; simp [charge]

theorem cells_ok : CellsOk (joinCharges BA BB ++ [ra, cb]) (a.rule + b.rule) a.blocks (bmmSort b.blocks) := by
  refine ⟨?_⟩
  intro k hk
  obtain ⟨p, hp⟩ := List.exists_mem_of_ne_nil _ hk
  obtain ⟨x, i, j, sx, sy, si, sj, sl, sl', rfl, a1, a2, a3, a4, a5, a6, a7, a8, a9, a10⟩ := cell_pair hca hcb hB hc hp
  obtain ⟨t, t1, t2, t3, t4⟩ := sections_join hB a1 a2
  have hlast : sections [ra, cb] [i, j] = some [si, sj] := by simp [sections, a3, a4]
  refine ⟨t ++ [si, sj], sx.map Prod.fst, si.1, sj.1, sections_append t1 hlast, ?_, by simp [t2], ?_⟩
  · rw [charge_append, t4, ← a7, ← a8]
    have : charge [si, sj] = si.2 + sj.2 := by simp [charge]
    rw [this]
    calc charge sx + charge sy + (si.2 + sj.2) = charge sx + charge sy + (si.2 + sj.2) + 0 := by rw [add_zero]
      _ = _ := by rw [← a6]; abel
  · intro q hq
    obtain ⟨x', i', j', sx', sy', si', sj', sm, sm', e, b1, b2, b3, b4, b5, b6, b7, b8, b9, b10⟩ := cell_pair hca hcb hB hc hq
    obtain ⟨rfl, e2⟩ := List.append_inj' e rfl
    simp only [List.cons.injEq, and_true] at e2
    obtain ⟨rfl, rfl⟩ := e2
    rw [a1] at b1; cases b1
    rw [a2] at b2; cases b2
    rw [a3] at b3; cases b3
    rw [a4] at b4; cases b4
    exact ⟨sm.1, b9, by rw [b10, t3, b5]⟩

theorem bmmRows_result : ∃ m, bmmRows (a.blocks.length + 1) ⟨joinCharges BA BB ++ [ra, cb], a.rule + b.rule, []⟩ a.blocks (bmmSort b.blocks) =
      .ok ⟨joinCharges BA BB ++ [ra, cb], a.rule + b.rule, m⟩ ∧ Sorted m ∧
      ∀ q, lookup m q = cellVal (joinCharges BA BB ++ [ra, cb]) a.blocks (bmmSort b.blocks) q := by
  have hl := SameSizes.length_eq hB
  have lena : ∀ e ∈ a.blocks, e.1.length = BA.length + 2 := by
    rintro ⟨k, v⟩ he
    obtain ⟨secs, s1, _⟩ := hca.block _ _ he
    rw [(sections_length s1).1]; simp
  have lenb : ∀ e ∈ bmmSort b.blocks, e.1.length = BA.length + 2 := by
    rintro ⟨k, v⟩ he
    obtain ⟨x, i, j, sx, _, _, rfl, _, h1, _⟩ := mem_bmmSort hcb he
    simp [(sections_length h1).1, hl]
  obtain ⟨m, m1, m2, m3⟩ := bmmRows_eq (by omega) hca.sorted (bmmSort_spec hcb).1 lenb (a.blocks.length + 1)
    ⟨joinCharges BA BB ++ [ra, cb], a.rule + b.rule, []⟩ a.blocks (bmmSort b.blocks) [] (le_refl _) hca.sorted lena (fun _ _ => rfl) rfl
    (by simp) (cells_ok hca hcb hB hc) List.Pairwise.nil
  refine ⟨m, m1, m2, ?_⟩
  intro q
  rw [m3]
  split
  · simp [lookup_nil]
  · rename_i h
    rw [cellVal_none (Or.inl fun e he h2 => h ⟨e, he, h2⟩)]
    rfl

theorem bmm_conserving {m : FM (List Nat) (Blk R)} (hs : Sorted m)
    (hm : ∀ q, lookup m q = cellVal (joinCharges BA BB ++ [ra, cb]) a.blocks (bmmSort b.blocks) q) :
    Conserving (joinCharges BA BB ++ [ra, cb]) (a.rule + b.rule) m := by
  refine ⟨hs, ?_⟩
  intro k v hk
  have h := hm k
  rw [(lookup_iff_mem hs).2 hk, cellVal] at h
  split at h
  · cases h
  · rename_i hne
    obtain ⟨secs, β, n, m, s1, s2, s3, s4⟩ := (cells_ok hca hcb hB hc).cell k hne
    simp only [Option.some.injEq] at h
    subst h
    exact ⟨secs, s1, s2, by rw [cellBlk, secSizes_eq s1]⟩

theorem bmm_entry {m : FM (List Nat) (Blk R)}
    (hm : ∀ q, lookup m q = cellVal (joinCharges BA BB ++ [ra, cb]) a.blocks (bmmSort b.blocks) q)
    {e : List Nat} {i j : Nat} (he : InRange e (BA.map dimSize)) (hi : i < dimSize ra) (hj : j < dimSize cb) :
    entry (joinCharges BA BB ++ [ra, cb]) m (e ++ [i, j]) = ((List.range (dimSize ca)).map fun k =>
      entry (BA ++ [ra, ca]) a.blocks (e ++ [i, k]) * entry (BB ++ [rb, cb]) b.blocks (e ++ [k, j])).sum := by
  have hf : List.Forall₂ (fun (s s' : Nat × G) => s.1 = s'.1 ∧ s.2 + s'.2 = 0) ca rb := by cases hc; assumption
  obtain ⟨⟨x, ox⟩, hlx⟩ := locateAll_isSome.mpr he
  obtain ⟨⟨bi, oi⟩, hli⟩ := locate_isSome.mpr hi
  obtain ⟨⟨bj, oj⟩, hlj⟩ := locate_isSome.mpr hj
  have hlx' : locateAll BB e = some (x, ox) := by rw [← locateAll_sizes hB]; exact hlx
  have hlx'' : locateAll (joinCharges BA BB) e = some (x, ox) := by rw [locateAll_sizes (joinCharges_same hB)]; exact hlx
  have two : ∀ {r c : Dim G} {i j p q u v}, locate r i = some (p, u) → locate c j = some (q, v) →
      locateAll [r, c] [i, j] = some ([p, q], [u, v]) := by
    intro r c i j p q u v h1 h2; simp [locateAll, h1, h2]
  have hT := bmmSort_spec hcb
  set T := bmmSort b.blocks with hTdef
  -- the value of one pair
  let φ : Blk R × Blk R → R := fun p =>
    ((List.range (size1 p.1.dims)).map fun l => p.1.f (ox ++ [oi, l]) * p.2.f (ox ++ [l, oj])).sum
  have hcp : cellPairs a.blocks T (x ++ [bi, bj]) = pairsList 1 (col 1 a.blocks (x ++ [bi])) (col 1 T (x ++ [bj])) := by
    have e1 : headKey 1 (x ++ [bi, bj]) = x ++ [bi] := by
      rw [show x ++ [bi, bj] = (x ++ [bi]) ++ [bj] by simp, headKey_append (by rfl)]
    have e2 : tailKey 1 (x ++ [bi, bj]) = [bj] := by
      rw [show x ++ [bi, bj] = (x ++ [bi]) ++ [bj] by simp, tailKey_append (by rfl)]
    rw [cellPairs, e1, e2, headKey_append (by rfl)]
  have hlhs : entry (joinCharges BA BB ++ [ra, cb]) m (e ++ [i, j]) = ((cellPairs a.blocks T (x ++ [bi, bj])).map φ).sum := by
    have hloc := locateAll_append hlx'' (two hli hlj)
    simp only [entry, hloc, hm, cellVal]
    by_cases hnil : cellPairs a.blocks T (x ++ [bi, bj]) = []
    · rw [if_pos hnil, hnil]; rfl
    · rw [if_neg hnil]
      obtain ⟨secs, β, n, m', s1, s2, s3, s4⟩ := (cells_ok hca hcb hB hc).cell _ hnil
      have hr := locateAll_offset hloc s1
      rw [s3] at hr
      have hr' : InRange (ox ++ [oi, oj]) (β ++ [n, m']) := hr
      have hlen : ox.length = β.length := by have := List.Forall₂.length_eq hr'; simpa using this
      have hsp : InRange ox β ∧ oi < n ∧ oj < m' := by
        have hd := List.forall₂_drop ox.length hr'
        have ht := List.forall₂_take ox.length hr'
        rw [List.take_left, hlen, List.take_left] at ht
        rw [List.drop_left, hlen, List.drop_left] at hd
        cases hd with
        | cons h1 h2 => cases h2 with
          | cons h3 _ => exact ⟨ht, h1, h3⟩
      dsimp only
      rw [secSizes_eq s1, s3]
      exact cellBlk_f hsp.1 hsp.2.1 hsp.2.2 s4
  rw [hlhs, hcp, sum_pairsList]
  -- the other side, section by section
  generalize hF : (fun q : Option (Nat × Nat) => match q with
    | none => (0 : R)
    | some (z, oz) =>
      (match lookup a.blocks (x ++ [bi, z]) with | none => 0 | some M => M.f (ox ++ [oi, oz])) *
      (match lookup T (x ++ [bj, z]) with | none => 0 | some M => M.f (ox ++ [oz, oj]))) = F
  have hrhs : ∀ k ∈ List.range (dimSize ca),
      entry (BA ++ [ra, ca]) a.blocks (e ++ [i, k]) * entry (BB ++ [rb, cb]) b.blocks (e ++ [k, j]) = (F ∘ locate ca) k := by
    intro k hk
    obtain ⟨⟨z, oz⟩, hlz⟩ := locate_isSome.mpr (List.mem_range.1 hk)
    have hlz' : locate rb k = some (z, oz) := by rw [← Contractible.locate hf]; exact hlz
    simp only [entry, locateAll_append hlx (two hli hlz), locateAll_append hlx' (two hlz' hlj), Function.comp, hlz, ← hF, hT.2]
    congr 1
  rw [sum_congr' hrhs, ← List.map_map, map_locate, sum_flatMap]
  have hlenT : ∀ e ∈ T, 1 ≤ e.1.length := by
    rintro ⟨k, v⟩ h
    obtain ⟨x, i, j, _, _, _, rfl, _⟩ := mem_bmmSort hcb h
    simp
  have hlenA : ∀ e ∈ a.blocks, 1 ≤ e.1.length := by
    rintro ⟨k, v⟩ h
    obtain ⟨secs, s1, _⟩ := hca.block _ _ h
    rw [(sections_length s1).1]; simp
  have hz : ∀ z ∈ List.range ca.length, (((List.range (secSize ca z)).map fun o => some (z, o)).map F).sum =
      match lookup ((col 1 a.blocks (x ++ [bi])).map fun e => (tailKey 1 e.1, e.2)) [z] with
      | some A => (match lookup ((col 1 T (x ++ [bj])).map fun e => (tailKey 1 e.1, e.2)) [z] with
        | some B => φ (A, B)
        | none => 0)
      | none => 0 := by
    intro z _
    rw [lookup_col hca.sorted hlenA rfl, lookup_col hT.1 hlenT rfl, List.map_map]
    simp only [List.append_assoc, List.cons_append, List.nil_append, Function.comp_def, ← hF]
    rcases hA : lookup a.blocks (x ++ [bi, z]) with _ | M
    · simp only [zero_mul]; exact sum_map_zero' _
    · rcases hB' : lookup T (x ++ [bj, z]) with _ | N
      · simp only [mul_zero]; exact sum_map_zero' _
      · obtain ⟨secs, s1, s2, s3⟩ := hca.block _ _ (mem_of_lookup hA)
        obtain ⟨x', i', l', sx, si, sl, hk, a1, a2, a3, rfl⟩ := sections_mat s1
        obtain ⟨rfl, e2⟩ := List.append_inj' hk rfl
        simp only [List.cons.injEq, and_true] at e2
        obtain ⟨rfl, rfl⟩ := e2
        have : size1 M.dims = secSize ca z := by
          rw [s3, List.map_append]
          rw [show List.map Prod.fst [si, sl] = [si.1, sl.1] from rfl, size1_append, secSize, a3]; rfl
        simp only [φ, this]
  rw [sum_congr' hz]
  have hfin := (sum_lookup (R := R) (A := (col 1 a.blocks (x ++ [bi])).map fun e => (tailKey 1 e.1, e.2))
    (Z := (List.range ca.length).map fun z => [z]) (List.Nodup.map (fun u v h => by simpa using h) List.nodup_range)
    (fun z A => match lookup ((col 1 T (x ++ [bj])).map fun e => (tailKey 1 e.1, e.2)) z with
        | some B => φ (A, B)
        | none => 0) ?_ ?_)
  · rw [List.map_map] at hfin
    refine hfin.symm.trans (sum_congr' fun z _ => ?_)
    simp only [Function.comp]
    generalize lookup ((col 1 a.blocks (x ++ [bi])).map fun e => (tailKey 1 e.1, e.2)) [z] = q
    cases q <;> rfl
  · rw [List.map_map, List.Nodup, List.pairwise_map]
    exact List.Pairwise.imp (fun h => ne_of_lt h) (col_tailSorted' hca.sorted _)
  · intro w hw
    obtain ⟨⟨k, M⟩, hm', rfl⟩ := List.mem_map.mp hw
    obtain ⟨hm', _⟩ := List.mem_filter.mp hm'
    obtain ⟨secs, s1, _⟩ := hca.block _ _ hm'
    obtain ⟨x', i', l', sx, si, sl, rfl, a1, a2, a3, _⟩ := sections_mat s1
    simp only
    rw [show x' ++ [i', l'] = (x' ++ [i']) ++ [l'] by simp, tailKey_append (by rfl), List.mem_map]
    exact ⟨l', List.mem_range.2 (List.getElem?_eq_some_iff.1 a3).1, rfl⟩

end

end QuantiT.BT
