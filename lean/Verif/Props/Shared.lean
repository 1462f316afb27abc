import Verif.Model.Shared
import Verif.Lemmas.Network
import Verif.Props.BTensor
/-
C121: writing into one tensor leaves the others as they are.  False for the tensors of the dense Hamiltonians, and for a
block tensor made from a dense one.
-/
namespace QuantiT
namespace SH
open Spec BT
variable {G R : Type}

theorem set_getD_zero (o : List Nat) (k : Nat) : o.set k (o.getD k 0 + 0) = o := by
  by_cases h : k < o.length
  · simp [List.getD_eq_getElem?_getD, h]
  · rw [List.set_eq_of_length_le (by omega)]

theorem edgesRef_eq {W : TRef} {rows D d : Nat} (hW : W.dims = [rows, d, rows, D]) (len : Nat) (hl : len ≠ 0) :
    ∃ vs, edgesRef len W rows = .ok vs ∧ vs.length = len ∧ ∀ i, i < len → ∃ v, vs[i]? = some v ∧ v.buf = W.buf ∧
      v.dims = [if i = 0 then rows - (rows - 1) else rows, d, if i = len - 1 then 1 else rows, D] ∧
      ∀ e, v.pos e = W.pos (place rows i e) := by
  have hc : MP.mkMpoFill W.dims = .ok () := by
    unfold MP.mkMpoFill
    rw [hW]; simp
  unfold edgesRef
  rw [hc]
  simp only [bind, Except.bind]
  rw [if_neg hl]
  refine ⟨_, rfl, by simp, fun i hi => ?_⟩
  simp only [List.getElem?_modify, List.getElem?_replicate, hi, if_true]
  by_cases h0 : i = 0
  · subst h0
    by_cases h1 : len - 1 = 0
    · refine ⟨narrowRef 2 0 1 (narrowRef 0 (rows - 1) rows W), by simp [h1], rfl, ?_, ?_⟩
      · simp [narrowRef, hW, h1]
      · intro e
        simp only [narrowRef, set_getD_zero, place, if_true]
    · refine ⟨narrowRef 0 (rows - 1) rows W, by simp [h1], rfl, ?_, ?_⟩
      · simp [narrowRef, hW, Ne.symm h1]
      · intro e
        simp only [narrowRef, place, if_true]
  · by_cases h1 : len - 1 = i
    · refine ⟨narrowRef 2 0 1 W, by simp [h1, Ne.symm h0], rfl, ?_, ?_⟩
      · simp only [narrowRef, hW, if_neg h0, if_pos h1.symm, List.set_cons_succ, List.set_cons_zero]
      · intro e
        simp only [narrowRef, set_getD_zero, place, if_neg h0]
    · refine ⟨W, by simp [h1, Ne.symm h0], rfl, ?_, ?_⟩
      · simp [hW, h0, Ne.symm h1]
      · intro e
        simp only [place, if_neg h0]

/-- What the sites hold when they are made. -/
theorem edgesRef_read {m : Memory R} {W : TRef} {len rows : Nat} :
    (edgesRef len W rows).map (List.map (read m)) = HM.edges len (read m W) rows := by
  unfold edgesRef HM.edges
  rcases h : MP.mkMpoFill W.dims with f | u
  · simp [read, h, bind, Except.bind, Except.map]
  · simp only [read, h, bind, Except.bind]
    by_cases hl : len = 0
    · simp [hl, Except.map, Res.ub]
    · have hn : ∀ (a b c k : Nat) (l : List TRef), (l.modify k (narrowRef a b c)).map (read m) =
          (l.map (read m)).modify k (HM.narrow a b c) := by
        intro a b c k l
        induction l generalizing k with
        | nil => cases k <;> rfl
        | cons x l ih =>
          cases k with
          | zero => rfl
          | succ k => simp only [List.modify_succ_cons, List.map_cons, ih]
      rw [if_neg hl, if_neg hl]
      simp only [Except.map, hn, List.map_replicate]
      rfl

/-- What is true of every chain the two Hamiltonians make: the tensors of all the sites are parts of one tensor. -/
structure OneTensor (rows d len : Nat) (vs : List TRef) : Prop where
  length : vs.length = len
  site : ∃ b, ∀ i, i < len → ∃ v, vs[i]? = some v ∧ v.buf = b ∧
    v.dims = [if i = 0 then rows - (rows - 1) else rows, d, if i = len - 1 then 1 else rows, d] ∧
    ∀ e, v.pos e = place rows i e

theorem OneTensor.get {rows d len : Nat} {vs : List TRef} (h : OneTensor rows d len vs) {i : Nat} {v : TRef}
    (hv : vs[i]? = some v) : i < len := by
  obtain ⟨hi, _⟩ := List.getElem?_eq_some_iff.mp hv
  exact h.length ▸ hi

/-- An assignment through one site, read through another. -/
theorem OneTensor.write_eq {rows d len : Nat} {vs : List TRef} (h : OneTensor rows d len vs) (m : Memory R) {i j : Nat}
    {v w : TRef} (hv : vs[i]? = some v) (hw : vs[j]? = some w) (e f : List Nat) (x : R) :
    (read (write m v e x) w).f f = if place rows i e = place rows j f then x else (read m w).f f := by
  obtain ⟨b, hs⟩ := h.site
  obtain ⟨v', h1, h2, _, h3⟩ := hs i (h.get hv)
  obtain ⟨w', g1, g2, _, g3⟩ := hs j (h.get hw)
  rw [hv] at h1; cases h1
  rw [hw] at g1; cases g1
  simp only [read, write, h2, g2, h3, g3, true_and, eq_comm]

theorem OneTensor.dims {rows d len : Nat} {vs : List TRef} (h : OneTensor rows d len vs) {i : Nat} {v : TRef}
    (hv : vs[i]? = some v) :
    v.dims = [if i = 0 then rows - (rows - 1) else rows, d, if i = len - 1 then 1 else rows, d] := by
  obtain ⟨b, hs⟩ := h.site
  obtain ⟨v', h1, _, h2, _⟩ := hs i (h.get hv)
  rw [hv] at h1; cases h1
  exact h2

theorem OneTensor.not_separate [Nontrivial R] {rows d len : Nat} {vs : List TRef} (h : OneTensor rows d len vs)
    (hr : 0 < rows) (hd : 0 < d) (hl : 2 ≤ len) : ¬ Separate R vs := by
  intro hsep
  obtain ⟨b, hs⟩ := h.site
  obtain ⟨v, h1, _, h2, _⟩ := hs 0 (by omega)
  obtain ⟨w, g1, _, g2, _⟩ := hs 1 (by omega)
  obtain ⟨x, y, hxy⟩ := exists_pair_ne R
  have hc : 0 < (if 0 = len - 1 then 1 else rows) := by split <;> omega
  have hc' : 0 < (if 1 = len - 1 then 1 else rows) := by split <;> omega
  have := hsep (fun _ _ => x) 0 1 v w [0, 0, 0, 0] [rows - 1, 0, 0, 0] y h1 g1 (by omega)
    (by rw [h2]
        exact .cons (by simp; omega) (.cons hd (.cons hc (.cons hd .nil))))
    (by rw [g2]
        exact .cons (by simp; omega) (.cons hd (.cons hc' (.cons hd .nil))))
  rw [h.write_eq _ h1 g1] at this
  simp [place, read] at this
  exact hxy this.symm

theorem heisenbergRef_one [Field R] {m : Memory R} {b : Nat} {J : R} {len : Nat} {m' : Memory R} {vs : List TRef}
    (h : heisenbergRef m b J len = .ok (m', vs)) : OneTensor 5 2 len vs := by
  unfold heisenbergRef at h
  have hd : (HM.heisenbergTensor (-J / 4)).dims = [5, 2, 5, 2] := rfl
  by_cases hl : len = 0
  · subst hl
    simp [edgesRef, hd, MP.mkMpoFill, bind, Except.bind, Res.ub] at h
  · obtain ⟨us, h1, h2, h3⟩ := edgesRef_eq (W := ⟨b, (HM.heisenbergTensor (-J / 4)).dims, id⟩) hd len hl
    simp only [h1, bind, Except.bind, Except.ok.injEq, Prod.mk.injEq] at h
    obtain ⟨_, rfl⟩ := h
    exact ⟨h2, b, h3⟩

theorem hubbardRef_one [Ring R] {m : Memory R} {b : Nat} {U mu : R} {len : Nat} {m' : Memory R} {vs : List TRef}
    (h : hubbardRef m b U mu len = .ok (m', vs)) : OneTensor 6 4 len vs := by
  unfold hubbardRef at h
  have hd : (HM.hubbardTensor U mu).dims = [6, 4, 6, 4] := rfl
  by_cases hl : len = 0
  · subst hl
    simp [edgesRef, hd, MP.mkMpoFill, bind, Except.bind, Res.ub] at h
  · obtain ⟨us, h1, h2, h3⟩ := edgesRef_eq (W := ⟨b, (HM.hubbardTensor U mu).dims, id⟩) hd len hl
    simp only [h1, bind, Except.bind, Except.ok.injEq, Prod.mk.injEq] at h
    obtain ⟨_, rfl⟩ := h
    exact ⟨h2, b, h3⟩

/-- When they are made the tensors hold the values of the Hamiltonian (`heisenberg` and `hubbard` are those of C55 and C56). -/
theorem C121_values [Field R] (m : Memory R) (b : Nat) (J U mu : R) (len : Nat) :
    (heisenbergRef m b J len).map (fun r => r.2.map (read r.1)) = HM.heisenberg J len ∧
    (hubbardRef m b U mu len).map (fun r => r.2.map (read r.1)) = HM.hubbard U mu len := by
  have key : ∀ (W : Blk R) (rows : Nat), (edgesRef len ⟨b, W.dims, id⟩ rows).map (List.map (read (store m b W))) =
      HM.edges len W rows := by
    intro W rows
    rw [edgesRef_read]
    congr 1
    simp [read, store]
  constructor
  · rw [HM.heisenberg, HM.heisenbergImpl, ← key]
    unfold heisenbergRef
    simp only
    rcases edgesRef len ⟨b, (HM.heisenbergTensor (-J / 4)).dims, id⟩ 5 with f | vs <;> rfl
  · rw [HM.hubbard, ← key]
    unfold hubbardRef
    simp only
    rcases edgesRef len ⟨b, (HM.hubbardTensor U mu).dims, id⟩ 6 with f | vs <;> rfl

/-- What an assignment to an element of one site of a Hamiltonian does to every element of every site: the elements that
come from the same element of the bulk tensor are changed, in all the sites, and no other.  For the site written to itself
(`i = j`) this is what an assignment should do. -/
theorem C121_write_partial [Field R] (m m' : Memory R) (b len : Nat) (J U mu : R) (vs : List TRef)
    (rows : Nat)
    (h : (rows = 5 ∧ heisenbergRef m b J len = .ok (m', vs)) ∨ (rows = 6 ∧ hubbardRef m b U mu len = .ok (m', vs)))
    (now : Memory R) (i j : Nat) (v w : TRef) (hv : vs[i]? = some v) (hw : vs[j]? = some w) (e f : List Nat) (x : R) :
    (read (write now v e x) w).f f = if place rows i e = place rows j f then x else (read now w).f f := by
  rcases h with ⟨rfl, h⟩ | ⟨rfl, h⟩
  · exact (heisenbergRef_one h).write_eq now hv hw e f x
  · exact (hubbardRef_one h).write_eq now hv hw e f x

/-- The elements of one site are separate from each other: an assignment to one leaves the others of that site. -/
theorem C121_within [Field R] (m m' : Memory R) (b len : Nat) (J U mu : R) (vs : List TRef)
    (h : heisenbergRef m b J len = .ok (m', vs) ∨ hubbardRef m b U mu len = .ok (m', vs))
    (now : Memory R) (i : Nat) (v : TRef) (hv : vs[i]? = some v) (e f : List Nat) (he : InRange e v.dims)
    (hf : InRange f v.dims) (x : R) :
    (read (write now v e x) v).f f = if e = f then x else (read now v).f f := by
  have key : ∀ rows d, OneTensor rows d len vs →
      (read (write now v e x) v).f f = if e = f then x else (read now v).f f := by
    intro rows d ho
    rw [ho.write_eq now hv hv]
    congr 1
    rw [ho.dims hv] at he hf
    unfold place
    by_cases hi : i = 0
    · simp only [hi, if_true] at he hf ⊢
      rcases e with _ | ⟨e0, e⟩
      · cases he
      rcases f with _ | ⟨f0, f⟩
      · cases hf
      simp
    · simp only [if_neg hi]
  rcases h with h | h
  · exact key _ _ (heisenbergRef_one h)
  · exact key _ _ (hubbardRef_one h)

/-- The tensors of the sites of a Hamiltonian of two sites or more are never separate. -/
theorem C121_separate_fails [Field R] (m m' : Memory R) (b len : Nat) (J U mu : R) (vs : List TRef) (hl : 2 ≤ len)
    (h : heisenbergRef m b J len = .ok (m', vs) ∨ hubbardRef m b U mu len = .ok (m', vs)) : ¬ Separate R vs := by
  rcases h with h | h
  · exact (heisenbergRef_one h).not_separate (by omega) (by omega) hl
  · exact (hubbardRef_one h).not_separate (by omega) (by omega) hl

/-- Adding a term to one site, the usual way to put a field or an impurity on it, adds it to all of them: the assignment of
an element of the operator on one site assigns it on every site. -/
theorem C121_onsite_fails [Field R] (m m' : Memory R) (b len : Nat) (J U mu : R) (vs : List TRef) (rows : Nat)
    (h : (rows = 5 ∧ heisenbergRef m b J len = .ok (m', vs)) ∨ (rows = 6 ∧ hubbardRef m b U mu len = .ok (m', vs)))
    (now : Memory R) (i j : Nat) (v w : TRef) (hv : vs[i]? = some v) (hw : vs[j]? = some w) (s s' : Nat) (x : R) :
    (read (write now v [if i = 0 then 0 else rows - 1, s, 0, s'] x) w).f [if j = 0 then 0 else rows - 1, s, 0, s'] = x := by
  rw [C121_write_partial m m' b len J U mu vs rows h now i j v w hv hw, if_pos]
  unfold place
  by_cases hi : i = 0 <;> by_cases hj : j = 0 <;> simp [hi, hj]

/-- An operation in place on the tensor of the first site (`H[0] *= 2`, to double the Hamiltonian) is applied to the last
row of every other site as well. -/
theorem C121_in_place_fails [Field R] (m m' : Memory R) (b len : Nat) (J U mu : R) (vs : List TRef) (rows d : Nat)
    (h : (rows = 5 ∧ d = 2 ∧ heisenbergRef m b J len = .ok (m', vs)) ∨
      (rows = 6 ∧ d = 4 ∧ hubbardRef m b U mu len = .ok (m', vs)))
    (now : Memory R) (g : R → R) (j : Nat) (v w : TRef) (hl : 2 ≤ len) (hv : vs[0]? = some v) (hw : vs[j]? = some w)
    (hj : j ≠ 0) (a s k s' : Nat) (hs : s < d) (hs' : s' < d) (hk : k < rows) (ha : a < rows) :
    (read (mapInPlace now v g) w).f [a, s, k, s'] =
      if a = rows - 1 then g ((read now w).f [a, s, k, s']) else (read now w).f [a, s, k, s'] := by
  have ho : OneTensor rows d len vs := by
    rcases h with ⟨rfl, rfl, h⟩ | ⟨rfl, rfl, h⟩
    · exact heisenbergRef_one h
    · exact hubbardRef_one h
  obtain ⟨c, hsite⟩ := ho.site
  obtain ⟨v', h1, h2, h2', h3⟩ := hsite 0 (by omega)
  obtain ⟨w', g1, g2, _, g3⟩ := hsite j (ho.get hw)
  rw [hv] at h1; cases h1
  rw [hw] at g1; cases g1
  simp only [read, mapInPlace, h2, g2, g3, true_and]
  congr 1
  have hp : ∀ e, place rows j e = e := fun e => by simp only [place, if_neg hj]
  rw [hp, eq_iff_iff, List.mem_map]
  constructor
  · rintro ⟨e, he, hq⟩
    rw [MP.mem_indices, h2'] at he
    rw [h3, place, if_pos rfl] at hq
    cases he with
    | cons he1 he2 =>
      simp only [List.set_cons_zero, List.getD_cons_zero, List.cons.injEq, if_true] at hq he1
      omega
  · rintro rfl
    refine ⟨[0, s, k, s'], ?_, ?_⟩
    · rw [MP.mem_indices, h2']
      have hc : k < (if 0 = len - 1 then 1 else rows) := by rw [if_neg (by omega)]; exact hk
      exact .cons (by simp; omega) (.cons hs (.cons hc (.cons hs' .nil)))
    · rw [h3]; simp [place]

/-- A Heisenberg chain of two sites: a field put on the first site is also on the second. -/
example : ∃ (m' : Memory ℚ) (v w : TRef), heisenbergRef (fun _ _ => 0) 0 1 2 = .ok (m', [v, w]) ∧
    (read m' w).f [4, 0, 0, 0] = 0 ∧ (read (write m' v [0, 0, 0, 0] 7) w).f [4, 0, 0, 0] = 7 ∧
    (read (write m' v [0, 0, 0, 0] 7) w).f [4, 0, 0, 1] = 0 :=
  ⟨_, _, _, rfl, by decide +kernel, by decide +kernel, by decide +kernel⟩

theorem lookup_map_key {V W : Type} (g : List Nat → W) (l : List (List Nat × V)) (k : List Nat) :
    lookup (l.map fun e => (e.1, g e.1)) k = if k ∈ l.map Prod.fst then some (g k) else none := by
  induction l with
  | nil => rfl
  | cons e l ih =>
    simp only [List.map_cons, lookup_cons, ih, List.mem_cons]
    by_cases h : e.1 = k
    · simp [h]
    · simp only [if_neg h, show ¬ k = e.1 from fun hk => h hk.symm, false_or]

theorem slices_inv {sl : List (Nat × Nat)} {e : List Nat} (h : inSlices sl e = true) :
    List.zipWith (fun x s => s.1 + x) (List.zipWith (fun x s => x - s.1) e sl) sl = e := by
  induction sl generalizing e with
  | nil => cases e <;> simp_all [inSlices]
  | cons s sl ih =>
    cases e with
    | nil => rfl
    | cons x xs =>
      simp only [inSlices, Bool.and_eq_true, decide_eq_true_eq] at h
      simp only [List.zipWith_cons_cons, List.cons.injEq]
      exact ⟨by omega, ih h.2⟩

section FromDense
variable [AddCommMonoid G] [DecidableEq G] [Zero R]

/-- A block tensor made from a dense one keeps no values of its own: whatever is done to memory afterwards, its elements in
the blocks it stores are the elements the dense tensor has then. -/
theorem C121_from_dense_fails (shape : Shape G) (rule : G) (hpos : ∀ d ∈ shape, d ≠ []) (sig : Blk R → Bool) (m : Memory R)
    (values : TRef) (hv : values.dims = shape.map dimSize) :
    ∃ t bl, fromBasic sig (read m values) (secCounts shape).prod (sparseZeros shape rule) = some (.ok t) ∧
      fromBasicRef sig m values (secCounts shape).prod (sparseZeros shape rule) = some (.ok bl) ∧
      -- the same blocks are stored
      bl.map Prod.fst = t.blocks.map Prod.fst ∧
      -- with the same values at first
      (∀ e, entry shape (readAll m bl) e = entry shape t.blocks e) ∧
      -- and with those of the dense tensor ever after
      ∀ (later : Memory R) e b o, locateAll shape e = some (b, o) →
        entry shape (readAll later bl) e = if b ∈ t.blocks.map Prod.fst then (read later values).f e else 0 := by
  obtain ⟨t, h1, h2, h3, hc, cut, hcut, hl⟩ := fromBasic_eq shape rule hpos sig (read m values) hv
  let ref : List Nat → TRef := fun k => match fullSlice shape k with
    | .ok sl => sliceRef values sl
    | .error _ => values
  have hread : ∀ (now : Memory R) e b o, locateAll shape e = some (b, o) → (read now (ref b)).f o = (read now values).f e := by
    intro now e b o he
    obtain ⟨secs, hs, _⟩ := locateAll_sections he
    obtain ⟨sl, g1, g2, g3, g4, g5, g6⟩ := fullSlice_eq hs
    have hin := g6 e o he
    have ho := (g3 e).mp hin
    rw [he] at ho
    simp only [Option.some.injEq, Prod.mk.injEq, true_and] at ho
    simp only [ref, g1, read, sliceRef]
    rw [ho, slices_inv hin]
  have hlook : ∀ (now : Memory R) b, lookup (readAll now (t.blocks.map fun kb => (kb.1, ref kb.1))) b =
      if b ∈ t.blocks.map Prod.fst then some (read now (ref b)) else none := by
    intro now b
    rw [readAll, List.map_map]
    exact lookup_map_key (fun k => read now (ref k)) t.blocks b
  have hev : ∀ (now : Memory R) e b o, locateAll shape e = some (b, o) →
      entry shape (readAll now (t.blocks.map fun kb => (kb.1, ref kb.1))) e =
        if b ∈ t.blocks.map Prod.fst then (read now values).f e else 0 := by
    intro now e b o he
    simp only [entry, he, hlook]
    by_cases hb : b ∈ t.blocks.map Prod.fst
    · rw [if_pos hb, if_pos hb]
      exact hread now e b o he
    · rw [if_neg hb, if_neg hb]
  refine ⟨t, t.blocks.map fun kb => (kb.1, ref kb.1), h1, ?_, by simp [Function.comp_def], ?_, hev⟩
  · unfold fromBasicRef
    rw [h1]
    rfl
  · intro e
    rcases he : locateAll shape e with _ | ⟨b, o⟩
    · simp only [entry, he]
    · rw [hev m e b o he]
      simp only [entry, he]
      rcases hb : lookup t.blocks b with _ | x
      · rw [if_neg]
        intro hb'
        obtain ⟨kb, hk, rfl⟩ := List.mem_map.mp hb'
        exact lookup_eq_none.mp hb kb hk rfl
      · rw [if_pos (List.mem_map_of_mem (mem_of_lookup hb))]
        rw [hl] at hb
        split at hb
        · cases hb
          obtain ⟨secs, hs, _⟩ := locateAll_sections he
          exact ((hcut b secs hs).2 e o he).symm
        · cases hb

/-- A matrix with two sections per side made from a dense one: zeroing the dense matrix afterwards zeroes it. -/
example : ∃ bl, fromBasicRef (fun _ => true) (fun _ p => if p = [0, 0] then 5 else 0) ⟨0, [2, 2], id⟩ 4
      (sparseZeros (R := ℤ) [[(1, 0), (1, 1)], [(1, 0), (1, -1)]] (0 : ℤ)) = some (.ok bl) ∧
    entry [[(1, 0), (1, 1)], [(1, 0), (1, -1)]] (readAll (fun _ p => if p = [0, 0] then 5 else 0) bl) [0, 0] = (5 : ℤ) ∧
    entry [[(1, 0), (1, 1)], [(1, 0), (1, -1)]] (readAll (fun _ _ => 0) bl) [0, 0] = (0 : ℤ) :=
  ⟨_, rfl, by decide +kernel, by decide +kernel⟩

end FromDense

end SH
end QuantiT
