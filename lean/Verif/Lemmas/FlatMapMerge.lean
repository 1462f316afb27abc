import Mathlib.Tactic.Tauto
import Verif.Lemmas.FlatMap
set_option linter.unusedSectionVars false
namespace QuantiT
open Spec
variable {K V : Type _} [LinearOrder K]
namespace FM

/-- Number of keys of `S` absent from `O`. -/
def newCount (S O : FM K V) : Nat := (S.filter fun e => (lookup O e.1).isNone).length

theorem newCount_append (S T O : FM K V) : newCount (S ++ T) O = newCount S O + newCount T O := by
  simp [newCount]

theorem newCount_all {S O : FM K V} (h : ∀ e ∈ S, lookup O e.1 = none) : newCount S O = S.length := by
  unfold newCount; rw [List.filter_eq_self.mpr]; intro e he; simp [h e he]

theorem newCount_congr {S O O' : FM K V} (h : ∀ e ∈ S, lookup O e.1 = lookup O' e.1) :
    newCount S O = newCount S O' := by
  unfold newCount; congr 1; apply List.filter_congr; intro e he; rw [h e he]

theorem newCount_one_some {x : K × V} {O : FM K V} {v : V} (h : lookup O x.1 = some v) :
    newCount [x] O = 0 := by simp [newCount, h]

/-! ### memory primitives -/

theorem readCell_mid (P R : Cells K V) (x : K × V) : readCell (P ++ some x :: R) P.length = .ok x := by
  simp [readCell]

theorem set_mid {α : Type _} (P R : List α) (a x : α) (n : Nat) (h : n = P.length) :
    (P ++ a :: R).set n x = P ++ x :: R := by subst h; simp

theorem mapM_some (xs : FM K V) :
    (xs.map some).mapM (m := Except Fault) (fun o : Option (K × V) => match o with
      | some x => Except.ok x
      | none => Res.ub) = .ok xs := by
  induction xs with
  | nil => rfl
  | cons x xs ih => simp only [List.map_cons, List.mapM_cons, ih]; rfl

theorem readRange_mid (P R : Cells K V) (xs : FM K V) (a b : Nat) (ha : a = P.length)
    (hb : b = P.length + xs.length) : readRange (P ++ xs.map some ++ R) a b = .ok xs := by
  subst ha hb
  unfold readRange
  have : ((P ++ xs.map some ++ R).take (P.length + xs.length)).drop P.length = xs.map some := by
    have h1 : P.length + xs.length = (P ++ xs.map some).length := by simp
    rw [h1, List.take_left, List.drop_left]
  rw [this]; exact mapM_some xs

theorem copyBackward_mid (P Q R : Cells K V) (xs : FM K V) (d : Nat) (hq : Q.length = xs.length)
    (hd : d = P.length + Q.length) :
    copyBackward (P ++ Q ++ R) xs d = .ok (P ++ xs.map some ++ R) := by
  subst hd
  unfold copyBackward
  rw [if_pos (by simp; omega)]
  have h1 : P.length + Q.length - xs.length = P.length := by omega
  have h2 : P.length + Q.length = (P ++ Q).length := by simp
  rw [h1, h2, List.drop_left, List.append_assoc P Q R, List.take_left]

/-- The merge loop invariant, relative to a split of the own and source elements. -/
structure Inv (f : V → V → V) (g : V → V) (m src : FM K V) (O1 O2 S1 S2 : FM K V) (gap : Cells K V) (out : FM K V)
    (s : MState K V) : Prop where
  hm : m = O1 ++ O2
  hsrc : src = S1 ++ S2
  hlook : s.look = O1.length
  hlast : s.last = S1.length
  hcells : s.cells = O1.map some ++ gap ++ out.map some
  hmte : s.mte = O1.length + gap.length
  hgap : gap.length = newCount S1 O1
  hout : Sorted out
  hO : ∀ x ∈ O1, ∀ y ∈ out, x.1 < y.1
  hS : ∀ x ∈ S1, ∀ y ∈ out, x.1 < y.1
  hval : ∀ k, lookup out k = mergeVal f g (lookup O2 k) (lookup S2 k)
  hlow : ∀ x ∈ O2, ∃ y ∈ src, y.1 ≤ x.1

theorem lookup_map_snd {W : Type _} (g : V → W) (l : FM K V) (k : K) :
    lookup (l.map fun e => (e.1, g e.2)) k = (lookup l k).map g := by
  induction l with
  | nil => rfl
  | cons e l ih =>
    simp only [List.map_cons, lookup_cons, ih]; split <;> simp

theorem sorted_map_snd {W : Type _} {g : V → W} {l : FM K V} (h : Sorted l) : Sorted (l.map fun e => (e.1, g e.2)) := by
  unfold Sorted at *; rw [List.pairwise_map]; exact h

theorem mergeVal_none {f : V → V → V} {g : V → V} {a b : Option V} :
    mergeVal f g a b = none ↔ a = none ∧ b = none := by
  cases a <;> cases b <;> simp [mergeVal]

/-- A key below all of `out` occurs neither in the treated own part nor in the treated source part. -/
theorem Inv.fresh {f g} {m src O1 O2 S1 S2 out : FM K V} {gap s} (h : Inv f g m src O1 O2 S1 S2 gap out s) {k : K}
    (hk : ∀ y ∈ out, k < y.1) : lookup O2 k = none ∧ lookup S2 k = none := by
  have := h.hval k
  rw [lookup_none_of_gt hk] at this
  exact mergeVal_none.mp this.symm

theorem partA_spec {f g} {m src O1 O2 S1 S2 out : FM K V} {gap s} (hms : Sorted m) (hss : Sorted src)
    (h : Inv f g m src O1 O2 S1 S2 gap out s) (hne : O1 ≠ []) (_hS1 : S1 ≠ []) :
    ∃ O1' O2' S1' S2' gap' out' s', mergePartA f g src s = .ok s' ∧
      Inv f g m src O1' O2' S1' S2' gap' out' s' ∧
      s'.look ≤ s.look ∧ s'.last ≤ s.last ∧
      (out' ≠ [] ∨ ∃ x ∈ O1', ∀ y ∈ S1', y.1 < x.1) ∧
      (s'.look + s'.last < s.look + s.last ∨ ∃ x ∈ O1', ∀ y ∈ S1', y.1 < x.1) := by
  obtain ⟨O, top, rfl⟩ : ∃ O top, O1 = O ++ [top] := by
    rcases List.eq_nil_or_concat O1 with rfl | ⟨O, t, rfl⟩
    · exact absurd rfl hne
    · exact ⟨O, t, by simp⟩
  have hS1s : Sorted S1 := by have := hss; rw [h.hsrc, sorted_append] at this; exact this.1
  have hOs : Sorted (O ++ [top]) := by have := hms; rw [h.hm, sorted_append] at this; exact this.1
  have hOtop : ∀ x ∈ O, x.1 < top.1 := fun x hx => (sorted_append.mp hOs).2.2 x hx top (by simp)
  have hread : readCell s.cells (s.look - 1) = .ok top := by
    rw [h.hcells, h.hlook]
    have : (O ++ [top]).length - 1 = (O.map some : Cells K V).length := by simp
    rw [this]
    simp only [List.map_append, List.map_cons, List.map_nil, List.append_assoc, List.singleton_append]
    simpa using readCell_mid (O.map some) (gap ++ out.map some) top
  have htake : src.take s.last = S1 := by rw [h.hsrc, h.hlast, List.take_left]
  obtain ⟨A, hA, hAs, hlb, hcase⟩ := split_cases hS1s top.1
  have htopout : ∀ y ∈ out, top.1 < y.1 := fun y hy => h.hO top (by simp) y hy
  rcases hcase with rfl | ⟨b, B, rfl, htb, hbB, hBs⟩ | ⟨v, B, rfl, htB, hBs⟩
  · -- nothing above top
    refine ⟨O ++ [top], O2, S1, S2, gap, out, ⟨s.cells, S1.length, s.look, s.mte⟩, ?_, ?_, le_refl _, ?_, ?_, ?_⟩
    · simp only [mergePartA, hread, htake, hlb, bind, Except.bind]
      simp
    · exact ⟨h.hm, h.hsrc, h.hlook, rfl, h.hcells, h.hmte, h.hgap, h.hout, h.hO, h.hS, h.hval, h.hlow⟩
    · simp [h.hlast]
    · right; exact ⟨top, by simp, hA⟩
    · right; exact ⟨top, by simp, hA⟩
  · -- copy b :: B
    have hgt : ∀ x ∈ b :: B, top.1 < x.1 := gt_of_chain htb hbB
    have hnone : ∀ x ∈ b :: B, lookup (O ++ [top]) x.1 = none := by
      intro x hx
      apply lookup_none_of_lt
      intro y hy
      have := hgt x hx
      rcases List.mem_append.mp hy with hy | hy
      · have := hOtop y hy; order
      · simp only [List.mem_singleton] at hy; subst hy; exact this
    have hg : gap.length = newCount A (O ++ [top]) + (b :: B).length := by
      rw [h.hgap, newCount_append, newCount_all hnone]
    obtain ⟨gap1, gap2, rfl, hg1, hg2⟩ : ∃ g1 g2, gap = g1 ++ g2 ∧ g1.length = newCount A (O ++ [top]) ∧
        g2.length = (b :: B).length :=
      ⟨gap.take (newCount A (O ++ [top])), gap.drop (newCount A (O ++ [top])), by simp, by simp [hg], by simp [hg]⟩
    have hlen : (A ++ b :: B).length = A.length + (b :: B).length := by simp
    refine ⟨O ++ [top], O2, A, (b :: B) ++ S2, gap1, ((b :: B).map fun e => (e.1, g e.2)) ++ out,
      ⟨(O ++ [top]).map some ++ gap1 ++ (((b :: B).map fun e => (e.1, g e.2)) ++ out).map some, A.length, s.look,
        s.mte - (b :: B).length⟩, ?_, ?_, le_refl _, ?_, ?_, ?_⟩
    · simp only [mergePartA, hread, htake, hlb, bind, Except.bind, getElem?_mid, htb, if_true]
      have hd : (A ++ b :: B).drop A.length = b :: B := List.drop_left
      rw [hd, h.hcells]
      rw [show (O ++ [top]).map some ++ (gap1 ++ gap2) ++ out.map some
          = ((O ++ [top]).map some ++ gap1) ++ gap2 ++ out.map some by simp]
      rw [copyBackward_mid _ gap2 _ _ _ (by rw [hg2]; simp) (by rw [h.hmte]; simp; omega)]
      simp
    · refine ⟨h.hm, by rw [h.hsrc]; simp, h.hlook, rfl, rfl, ?_, hg1, ?_, ?_, ?_, ?_, h.hlow⟩
      · simp only [h.hmte, List.length_append, hg2]; omega
      · rw [sorted_append]
        refine ⟨sorted_map_snd (sorted_cons.mpr ⟨hbB, hBs⟩), h.hout, ?_⟩
        intro x hx y hy
        simp only [List.mem_map] at hx
        obtain ⟨e, he, rfl⟩ := hx
        exact h.hS e (by simp at he ⊢; tauto) y hy
      · intro x hx y hy
        rcases List.mem_append.mp hy with hy | hy
        · simp only [List.mem_map] at hy
          obtain ⟨e, he, rfl⟩ := hy
          have := hgt e he
          rcases List.mem_append.mp hx with hx | hx
          · have := hOtop x hx; simp only; order
          · simp only [List.mem_singleton] at hx; subst hx; exact this
        · exact h.hO x hx y hy
      · intro x hx y hy
        rcases List.mem_append.mp hy with hy | hy
        · simp only [List.mem_map] at hy
          obtain ⟨e, he, rfl⟩ := hy
          have h1 := hA x hx
          have h2 := hgt e he
          simp only; order
        · exact h.hS x (by simp [hx]) y hy
      · intro k
        rw [lookup_append, lookup_map_snd, lookup_append, h.hval]
        cases hk : lookup (b :: B) k with
        | none => simp
        | some v =>
          have hmem := mem_of_lookup hk
          have := (h.fresh (k := k) (fun y hy => h.hS (k, v) (by simp at hmem ⊢; tauto) y hy)).1
          simp [this, mergeVal]
    · simp only [h.hlast, hlen]; omega
    · left; simp
    · left; simp only [h.hlast, hlen, List.length_cons]; omega
  · -- collision with top
    have hnone : ∀ x ∈ B, lookup (O ++ [top]) x.1 = none := by
      intro x hx
      apply lookup_none_of_lt
      intro y hy
      have := htB x hx
      rcases List.mem_append.mp hy with hy | hy
      · have := hOtop y hy; order
      · simp only [List.mem_singleton] at hy; subst hy; exact this
    have htopsome : lookup (O ++ [top]) (top.1, v).1 = some top.2 := lookup_mid (v := top.2) (k := top.1) hOtop
    have hcount : newCount A (O ++ [top]) = newCount A O := by
      apply newCount_congr
      intro e he
      rw [lookup_append, lookup_cons, if_neg (by have := hA e he; intro; order), lookup_nil]; simp
    have hg : gap.length = newCount A O + B.length := by
      rw [h.hgap, newCount_append, show ((top.1, v) :: B : FM K V) = [(top.1, v)] ++ B from rfl, newCount_append,
        newCount_one_some htopsome, newCount_all hnone, hcount]; omega
    obtain ⟨gap1, gap2, rfl, hg1, hg2⟩ : ∃ g1 g2, gap = g1 ++ g2 ∧ g1.length = newCount A O ∧
        g2.length = B.length :=
      ⟨gap.take (newCount A O), gap.drop (newCount A O), by simp, by simp [hg], by simp [hg]⟩
    have hlen : (A ++ (top.1, v) :: B).length = A.length + 1 + B.length := by simp; omega
    obtain ⟨gapN, hgapN, hfin⟩ : ∃ gapN : Cells K V, gapN.length = gap1.length ∧
        mergePartA f g src s = .ok ⟨O.map some ++ gapN ++
          ((top.1, f top.2 v) :: (B.map (fun e => (e.1, g e.2)) ++ out)).map some, A.length,
          O.length, O.length + gap1.length⟩ := by
      simp only [mergePartA, hread, htake, hlb, bind, Except.bind, getElem?_mid, lt_irrefl, if_false]
      have hd : (A ++ (top.1, v) :: B).drop (A.length + 1) = B := by
        rw [← List.drop_drop, List.drop_left]; rfl
      rw [hd, h.hcells]
      rw [show (O ++ [top]).map some ++ (gap1 ++ gap2) ++ out.map some
          = (O.map some ++ some top :: gap1) ++ gap2 ++ out.map some by simp]
      rw [copyBackward_mid _ gap2 _ _ _ (by rw [hg2]; simp) (by rw [h.hmte]; simp; omega)]
      have e1 : s.mte - B.length - 1 = O.length + gap1.length := by
        rw [h.hmte]; simp only [List.length_append, List.length_cons, List.length_nil, hg2]; omega
      have e2 : s.look - 1 = O.length := by rw [h.hlook]; simp
      simp only [e1, e2]
      generalize hR : ((B.map fun e => (e.1, g e.2)).map some ++ out.map some : Cells K V) = R
      have hR' : ((top.1, f top.2 v) :: (B.map (fun e => (e.1, g e.2)) ++ out)).map some
          = some (top.1, f top.2 v) :: R := by rw [← hR]; simp
      rw [hR']
      rw [show (O.map some ++ some top :: gap1) ++ (B.map fun e => (e.1, g e.2)).map some ++ out.map some
        = O.map some ++ some top :: (gap1 ++ R) by rw [← hR]; simp]
      have hrd : readCell (O.map some ++ some top :: (gap1 ++ R)) O.length = .ok top := by
        simpa using readCell_mid (O.map some) (gap1 ++ R) top
      simp only [hrd]
      rcases List.eq_nil_or_concat gap1 with rfl | ⟨gi, gl, rfl⟩
      · refine ⟨[], rfl, ?_⟩
        simp only [List.length_nil, Nat.add_zero, ne_eq, not_true_eq_false, if_false, List.nil_append]
        have := readCell_mid (O.map some) R top
        simp only [List.length_map] at this
        rw [this]
        simp
      · refine ⟨none :: gi, by simp, ?_⟩
        have hl : (gi ++ [gl]).length = gi.length + 1 := by simp
        rw [List.concat_eq_append] at *
        simp only [hl]
        rw [if_pos (by omega)]
        have hs1 : (O.map some ++ some top :: ((gi ++ [gl]) ++ R)).set O.length none
            = (O.map some ++ none :: gi) ++ gl :: R := by
          rw [set_mid _ _ _ _ _ (by simp)]; simp
        have hs2 : ((O.map some ++ none :: gi) ++ gl :: R).set (O.length + (gi.length + 1)) (some top)
            = (O.map some ++ none :: gi) ++ some top :: R := by
          rw [set_mid _ _ _ _ _ (by simp)]
        rw [hs1, hs2]
        have hlen2 : O.length + (gi.length + 1) = (O.map some ++ none :: gi : Cells K V).length := by simp
        rw [hlen2, readCell_mid]
        simp only
        rw [set_mid _ _ _ _ _ rfl]
    refine ⟨O, top :: O2, A, (top.1, v) :: B ++ S2, gapN, (top.1, f top.2 v) :: (B.map (fun e => (e.1, g e.2)) ++ out),
      _, hfin, ?_, ?_, ?_, ?_, ?_⟩
    · refine ⟨by rw [h.hm]; simp, by rw [h.hsrc]; simp, rfl, rfl, rfl, by simp [hgapN], by rw [hgapN, hg1], ?_, ?_, ?_, ?_, ?_⟩
      · rw [sorted_cons, sorted_append]
        refine ⟨?_, sorted_map_snd hBs, h.hout, ?_⟩
        · intro y hy
          rcases List.mem_append.mp hy with hy | hy
          · simp only [List.mem_map] at hy
            obtain ⟨e, he, rfl⟩ := hy
            exact htB e he
          · exact htopout y hy
        · intro x hx y hy
          simp only [List.mem_map] at hx
          obtain ⟨e, he, rfl⟩ := hx
          exact h.hS e (by simp; tauto) y hy
      · intro x hx y hy
        have hxt := hOtop x hx
        rcases List.mem_cons.mp hy with rfl | hy
        · exact hxt
        · rcases List.mem_append.mp hy with hy | hy
          · simp only [List.mem_map] at hy
            obtain ⟨e, he, rfl⟩ := hy
            have := htB e he; simp only; order
          · have := htopout y hy; order
      · intro x hx y hy
        have hxt := hA x hx
        rcases List.mem_cons.mp hy with rfl | hy
        · exact hxt
        · rcases List.mem_append.mp hy with hy | hy
          · simp only [List.mem_map] at hy
            obtain ⟨e, he, rfl⟩ := hy
            have := htB e he; simp only; order
          · have := htopout y hy; order
      · intro k
        rw [lookup_cons, lookup_cons, List.cons_append, lookup_cons, lookup_append, lookup_map_snd, lookup_append, h.hval]
        by_cases hk : top.1 = k
        · simp [hk, mergeVal]
        · simp only [hk, if_false]
          cases hk : lookup B k with
          | none => simp
          | some v =>
            have hmem := mem_of_lookup hk
            have := (h.fresh (k := k) (fun y hy => h.hS (k, v) (by simp; tauto) y hy)).1
            simp [this, mergeVal]
      · intro x hx
        rcases List.mem_cons.mp hx with rfl | hx
        · exact ⟨(x.1, v), by rw [h.hsrc]; simp, le_refl _⟩
        · exact h.hlow x hx
    · simp [h.hlook]
    · simp only [h.hlast, hlen]; omega
    · left; simp
    · left; simp only [h.hlast, hlen, h.hlook, List.length_append, List.length_cons, List.length_nil]; omega

theorem partB_spec {f g} {m src O1 O2 S1 S2 out : FM K V} {gap s} (hms : Sorted m) (hss : Sorted src)
    (h : Inv f g m src O1 O2 S1 S2 gap out s) (hS1 : S1 ≠ [])
    (hready : out ≠ [] ∨ ∃ x ∈ O1, ∀ y ∈ S1, y.1 < x.1) :
    ∃ O1' O2' S1' S2' gap' out' s', mergePartB f src s = .ok s' ∧
      Inv f g m src O1' O2' S1' S2' gap' out' s' ∧
      s'.look ≤ s.look ∧ s'.last ≤ s.last ∧
      ((∃ x ∈ O1, ∀ y ∈ S1, y.1 < x.1) → s'.look < s.look) := by
  obtain ⟨A, key, rfl⟩ : ∃ A key, S1 = A ++ [key] := by
    rcases List.eq_nil_or_concat S1 with rfl | ⟨O, t, rfl⟩
    · exact absurd rfl hS1
    · exact ⟨O, t, by simp⟩
  have hS1s : Sorted (A ++ [key]) := by have := hss; rw [h.hsrc, sorted_append] at this; exact this.1
  have hAkey : ∀ x ∈ A, x.1 < key.1 := fun x hx => (sorted_append.mp hS1s).2.2 x hx key (by simp)
  have hO1s : Sorted O1 := by have := hms; rw [h.hm, sorted_append] at this; exact this.1
  have hkeyread : src[s.last - 1]? = some key := by rw [h.hsrc, h.hlast]; simp
  have hkeyout : ∀ y ∈ out, key.1 < y.1 := fun y hy => h.hS key (by simp) y hy
  obtain ⟨C, D, rfl, hlb, hC, hD, hCs, hDs⟩ := split_lb hO1s key.1
  have hown : readRange s.cells 0 s.look = .ok (C ++ D) := by
    rw [h.hcells, h.hlook]
    simpa using readRange_mid [] (gap ++ out.map some) (C ++ D) 0 (C ++ D).length rfl (by simp)
  obtain ⟨Q1, hQ1, hmv⟩ : ∃ Q1 : Cells K V, Q1.length = gap.length ∧
      (if s.mte ≠ s.look then moveBackward s.cells C.length s.look s.mte else .ok s.cells)
        = .ok (C.map some ++ Q1 ++ (D ++ out).map some) := by
    by_cases hg : gap = []
    · subst hg
      refine ⟨[], rfl, ?_⟩
      rw [if_neg (by rw [h.hmte, h.hlook]; simp), h.hcells]; simp
    · have hpos : gap.length ≠ 0 := by simpa using hg
      rw [if_pos (by rw [h.hmte, h.hlook]; omega)]
      refine ⟨(List.replicate D.length none ++ gap).take gap.length, by simp, ?_⟩
      have hr : readRange s.cells C.length s.look = .ok D := by
        rw [h.hcells, h.hlook]
        have := readRange_mid (C.map some) (gap ++ out.map some) D C.length (C ++ D).length (by simp) (by simp)
        simpa using this
      have hblank : s.cells.take C.length ++ List.replicate (s.look - C.length) none ++ s.cells.drop s.look
          = (C.map some ++ (List.replicate D.length none ++ gap).take gap.length) ++
            (List.replicate D.length none ++ gap).drop gap.length ++ out.map some := by
        rw [List.append_assoc (C.map some) (List.take _ _), List.take_append_drop]
        rw [h.hcells, h.hlook]
        have e1 : (C ++ D).length - C.length = D.length := by simp
        rw [e1]
        have e2 : ((C ++ D).map some ++ gap ++ out.map some).take C.length = C.map some := by
          rw [List.map_append, List.append_assoc, List.append_assoc]
          have : C.length = (C.map some : Cells K V).length := by simp
          rw [this, List.take_left]
        have e3 : ((C ++ D).map some ++ gap ++ out.map some).drop (C ++ D).length = gap ++ out.map some := by
          rw [List.append_assoc]
          have : (C ++ D).length = ((C ++ D).map some : Cells K V).length := by simp
          rw [this, List.drop_left]
        rw [e2, e3]; simp
      simp only [moveBackward, hr, bind, Except.bind]
      rw [hblank, copyBackward_mid _ _ _ _ _ (by simp) (by rw [h.hmte]; simp; omega)]
      simp
  have hlow : ∀ x ∈ D ++ O2, ∃ y ∈ src, y.1 ≤ x.1 := by
    intro x hx
    rcases List.mem_append.mp hx with hx | hx
    · exact ⟨key, by rw [h.hsrc]; simp, hD x hx⟩
    · exact h.hlow x hx
  have hDout : Sorted (D ++ out) := by
    rw [sorted_append]
    exact ⟨hDs, h.hout, fun x hx y hy => h.hO x (by simp [hx]) y hy⟩
  have hCD : ∀ x ∈ C, ∀ y ∈ D, x.1 < y.1 := (sorted_append.mp hO1s).2.2
  have hCout : ∀ x ∈ C, ∀ y ∈ D ++ out, x.1 < y.1 := by
    intro x hx y hy
    rcases List.mem_append.mp hy with hy | hy
    · exact hCD x hx y hy
    · exact h.hO x (by simp [hx]) y hy
  have hDfresh : ∀ k v, lookup D k = some v → lookup O2 k = none ∧ lookup S2 k = none := by
    intro k v hk
    have hmem := mem_of_lookup hk
    exact h.fresh (k := k) (fun y hy => h.hO (k, v) (by simp [hmem]) y hy)
  have hmte3 : s.mte - (s.look - C.length) = (C.map some ++ Q1 : Cells K V).length := by
    rw [h.hmte, h.hlook]; simp [hQ1]; omega
  have hprog : (∃ x ∈ C ++ D, ∀ y ∈ A ++ [key], y.1 < x.1) → D ≠ [] := by
    rintro ⟨x, hx, hy⟩ rfl
    have h1 := hy key (by simp)
    have h2 := hC x (by simpa using hx)
    order
  have hDcase : D = [] ∨ (∃ d D', D = d :: D' ∧ key.1 < d.1) ∨ (∃ v D', D = (key.1, v) :: D') := by
    cases D with
    | nil => left; rfl
    | cons d D' =>
      right
      rcases lt_or_eq_of_le (hD d (by simp)) with h1 | h1
      · left; exact ⟨d, D', rfl, h1⟩
      · right; exact ⟨d.2, D', by rw [h1]⟩
  -- the branch without collision
  have hnocol : (∀ x ∈ D, key.1 < x.1) →
      Inv f g m src C (D ++ O2) (A ++ [key]) S2 Q1 (D ++ out)
        ⟨C.map some ++ Q1 ++ (D ++ out).map some, s.last, C.length, (C.map some ++ Q1 : Cells K V).length⟩ := by
    intro hDgt
    refine ⟨by rw [h.hm]; simp, h.hsrc, rfl, h.hlast, rfl, by simp, ?_, hDout, hCout, ?_, ?_, hlow⟩
    · rw [hQ1, h.hgap]
      apply newCount_congr
      intro e he
      rw [lookup_append]
      have : lookup D e.1 = none := by
        apply lookup_none_of_gt
        intro x hx
        have h1 := hDgt x hx
        rcases List.mem_append.mp he with he | he
        · have := hAkey e he; order
        · simp only [List.mem_singleton] at he; subst he; exact h1
      simp [this]
    · intro x hx y hy
      rcases List.mem_append.mp hy with hy | hy
      · have h1 := hDgt y hy
        rcases List.mem_append.mp hx with hx | hx
        · have := hAkey x hx; order
        · simp only [List.mem_singleton] at hx; subst hx; exact h1
      · exact h.hS x hx y hy
    · intro k
      rw [lookup_append, lookup_append, h.hval]
      cases hk : lookup D k with
      | none => simp
      | some v => have := hDfresh k v hk; simp [this, mergeVal]
  rcases hDcase with hD0 | ⟨d, D', hDe, hlt⟩ | ⟨v, D', hDe⟩
  · -- nothing moved: out is not empty
    have hout : out ≠ [] := by
      rcases hready with h1 | h1
      · exact h1
      · exact absurd hD0 (hprog h1)
    obtain ⟨o, out', rfl⟩ := List.exists_cons_of_ne_nil hout
    refine ⟨C, D ++ O2, A ++ [key], S2, Q1, D ++ (o :: out'), _, ?_, hnocol (by simp [hD0]), ?_, le_refl _, ?_⟩
    · simp only [mergePartB, hkeyread, hown, bind, Except.bind, hlb, hmv, hmte3]
      have hrd : readCell (C.map some ++ Q1 ++ (D ++ o :: out').map some) (C.map some ++ Q1 : Cells K V).length
          = .ok o := by subst hD0; exact readCell_mid _ _ _
      simp only [hrd]
      rw [if_pos (hkeyout o (by simp))]
    · simp [h.hlook]
    · intro h1; exact absurd hD0 (hprog h1)
  · have hDgt : ∀ x ∈ D, key.1 < x.1 := by
      rw [hDe] at hDs ⊢; exact gt_of_chain hlt (sorted_cons.mp hDs).1
    refine ⟨C, D ++ O2, A ++ [key], S2, Q1, D ++ out, _, ?_, hnocol hDgt, ?_, le_refl _, ?_⟩
    · simp only [mergePartB, hkeyread, hown, bind, Except.bind, hlb, hmv, hmte3]
      have hrd : readCell (C.map some ++ Q1 ++ (D ++ out).map some) (C.map some ++ Q1 : Cells K V).length
          = .ok d := by rw [hDe]; exact readCell_mid _ _ _
      simp only [hrd, hlt, if_true]
    · simp [h.hlook]
    · intro _; rw [h.hlook, hDe]; simp
  · -- collision of key with the lowest moved element
    subst hDe
    rw [sorted_cons] at hDs
    refine ⟨C, (key.1, v) :: D' ++ O2, A, key :: S2, Q1, (key.1, f v key.2) :: D' ++ out,
      ⟨C.map some ++ Q1 ++ ((key.1, f v key.2) :: D' ++ out).map some, s.last - 1, C.length,
        (C.map some ++ Q1 : Cells K V).length⟩, ?_, ?_, ?_, ?_, ?_⟩
    · simp only [mergePartB, hkeyread, hown, bind, Except.bind, hlb, hmv, hmte3]
      have hrd : readCell (C.map some ++ Q1 ++ ((key.1, v) :: D' ++ out).map some) (C.map some ++ Q1 : Cells K V).length
          = .ok (key.1, v) := readCell_mid _ _ _
      simp only [hrd, lt_irrefl, if_false]
      congr 2
      simp only [List.cons_append, List.map_cons]
      rw [set_mid _ _ _ _ _ rfl]
    · refine ⟨by rw [h.hm]; simp, by rw [h.hsrc]; simp, rfl, by simp [h.hlast], rfl, by simp, ?_, ?_, ?_, ?_, ?_, hlow⟩
      · rw [hQ1, h.hgap, newCount_append]
        have hsome : lookup (C ++ (key.1, v) :: D') key.1 = some v := lookup_mid hC
        rw [newCount_one_some hsome, Nat.add_zero]
        apply newCount_congr
        intro e he
        have h1 := hAkey e he
        rw [lookup_append]
        have : lookup ((key.1, v) :: D') e.1 = none := by
          apply lookup_none_of_gt
          intro x hx
          have := hD x hx; order
        simp [this]
      · rw [List.cons_append, sorted_cons] at hDout ⊢; exact hDout
      · intro x hx y hy
        rw [List.cons_append] at hy
        rcases List.mem_cons.mp hy with rfl | hy
        · exact hC x hx
        · exact hCout x hx y (by simp only [List.cons_append]; exact List.mem_cons_of_mem _ hy)
      · intro x hx y hy
        have h1 := hAkey x hx
        rw [List.cons_append] at hy
        rcases List.mem_cons.mp hy with rfl | hy
        · exact h1
        · rcases List.mem_append.mp hy with hy | hy
          · have := hDs.1 y hy; simp only at this; order
          · exact h.hS x (by simp [hx]) y hy
      · intro k
        have hfr := hDfresh key.1 v (by simp [lookup_cons])
        simp only [List.cons_append, lookup_cons, lookup_append]
        by_cases hk : key.1 = k
        · simp [hk, mergeVal]
        · simp only [hk, if_false, h.hval]
          cases hk2 : lookup D' k with
          | none => simp
          | some w =>
            have := hDfresh k w (by rw [lookup_cons]; simp [hk, hk2])
            simp [this, mergeVal]
    · simp [h.hlook]
    · simp
    · intro _; rw [h.hlook]; simp

theorem mergeLoop_spec {f g} {m src : FM K V} (hms : Sorted m) (hss : Sorted src) :
    ∀ (fuel : Nat) (s : MState K V) (O1 O2 S1 S2 out : FM K V) (gap : Cells K V),
      Inv f g m src O1 O2 S1 S2 gap out s → s.look + s.last < fuel →
      ∃ O1' O2' S1' S2' gap' out' s', mergeLoop f g src fuel s = .ok s' ∧
        Inv f g m src O1' O2' S1' S2' gap' out' s' ∧ (s'.look = 0 ∨ s'.last = 0)
  | 0, _, _, _, _, _, _, _, _, h => by omega
  | fuel + 1, s, O1, O2, S1, S2, out, gap, h, hf => by
    by_cases hc : s.look ≠ 0 ∧ s.last ≠ 0
    · have hO1 : O1 ≠ [] := by intro e; subst e; exact hc.1 h.hlook
      have hS1 : S1 ≠ [] := by intro e; subst e; exact hc.2 h.hlast
      obtain ⟨O1', O2', S1', S2', gap', out', s', hrun, hinv, hl, hla, hready, hprog⟩ := partA_spec hms hss h hO1 hS1
      simp only [mergeLoop, if_pos hc, hrun, bind, Except.bind]
      by_cases h0 : s'.last = 0
      · rw [if_pos h0]; exact ⟨_, _, _, _, _, _, _, rfl, hinv, Or.inr h0⟩
      · rw [if_neg h0]
        have hS1' : S1' ≠ [] := by intro e; subst e; exact h0 hinv.hlast
        obtain ⟨O1'', O2'', S1'', S2'', gap'', out'', s'', hrun2, hinv2, hl2, hla2, hprog2⟩ :=
          partB_spec hms hss hinv hS1' hready
        rw [hrun2]
        apply mergeLoop_spec hms hss fuel s'' O1'' O2'' S1'' S2'' out'' gap'' hinv2
        rcases hprog with h1 | h1
        · omega
        · have := hprog2 h1; omega
    · refine ⟨O1, O2, S1, S2, gap, out, s, by simp only [mergeLoop, if_neg hc], h, ?_⟩
      simp only [not_and_or, not_not] at hc; exact hc

theorem countNew_spec {m : FM K V} (hms : Sorted m) :
    ∀ (xs : FM K V) (P Q : FM K V) (n : Nat), m = P ++ Q → Sorted xs → (∀ p ∈ P, ∀ x ∈ xs, p.1 < x.1) →
      countNew m xs P.length (n + xs.length) = n + newCount xs m
  | [], P, Q, n, _, _, _ => by simp [countNew, newCount]
  | x :: xs, P, Q, n, hm, hxs, hP => by
    have hQs : Sorted Q := by rw [hm, sorted_append] at hms; exact hms.2.1
    rw [sorted_cons] at hxs
    have hd : m.drop P.length = Q := by rw [hm, List.drop_left]
    obtain ⟨A, hA, hAs, hlb, hcase⟩ := split_cases hQs x.1
    simp only [countNew, hd, hlb]
    have hsplit : newCount (x :: xs) m = newCount [x] m + newCount xs m := newCount_append [x] xs m
    rcases hcase with rfl | ⟨b, B, hQ, hxb, hbB, hBs⟩ | ⟨v, B, hQ, hxB, hBs⟩
    · have hnone : m[P.length + Q.length]? = none := by rw [hm]; simp
      rw [hnone]
      simp only
      rw [newCount_all]
      intro e he
      apply lookup_none_of_lt
      intro y hy
      rw [hm] at hy
      rcases List.mem_append.mp hy with hy | hy
      · exact hP y hy e he
      · have h1 := hA y hy
        rcases List.mem_cons.mp he with rfl | he
        · exact h1
        · have := hxs.1 e he; order
    · have hget : m[P.length + A.length]? = some b := by rw [hm, hQ]; simp
      rw [hget]
      simp only [hxb, if_true]
      have hlen : P.length + A.length = (P ++ A).length := by simp
      rw [hlen, show n + (x :: xs).length = (n + 1) + xs.length by simp; omega,
        countNew_spec hms xs (P ++ A) (b :: B) (n + 1) (by rw [hm, hQ]; simp) hxs.2 ?_, hsplit]
      · have : newCount [x] m = 1 := by
          rw [newCount_all]; · rfl
          intro e he
          simp only [List.mem_singleton] at he; subst he
          rw [hm, hQ, lookup_append, lookup_append, lookup_none_of_lt hA, lookup_none_of_gt (gt_of_chain hxb hbB),
            lookup_none_of_lt (fun y hy => hP y hy e (by simp))]; rfl
        omega
      · intro p hp e he
        rcases List.mem_append.mp hp with hp | hp
        · exact hP p hp e (by simp [he])
        · have h1 := hA p hp; have := hxs.1 e he; order
    · have hget : m[P.length + A.length]? = some (x.1, v) := by rw [hm, hQ]; simp
      rw [hget]
      simp only [lt_irrefl, if_false]
      have hlen : P.length + A.length = (P ++ A).length := by simp
      rw [hlen, show n + (x :: xs).length - 1 = n + xs.length by simp,
        countNew_spec hms xs (P ++ A) ((x.1, v) :: B) n (by rw [hm, hQ]; simp) hxs.2 ?_, hsplit]
      · have : newCount [x] m = 0 := by
          apply newCount_one_some (v := v)
          rw [hm, hQ, lookup_append, lookup_none_of_lt (fun y hy => hP y hy x (by simp)), lookup_mid hA]; rfl
        omega
      · intro p hp e he
        rcases List.mem_append.mp hp with hp | hp
        · exact hP p hp e (by simp [he])
        · have h1 := hA p hp; have := hxs.1 e he; order

/-- What the in-place merge computes: it terminates without undefined behaviour, yields sorted keys, and
gives every key the specified value, except that the own keys below all source keys also get `g`. -/
theorem mergeInsert_spec (f : V → V → V) (g : V → V) {m src : FM K V} (hms : Sorted m) (hss : Sorted src) :
    ∃ r, mergeInsert f g m src = .ok r ∧ Sorted r ∧
      ∀ k, lookup r k = if ∀ e ∈ src, k < e.1 then (lookup m k).map g
        else mergeVal f g (lookup m k) (lookup src k) := by
  have hcount : countNew m src 0 src.length = newCount src m := by
    have := countNew_spec hms src [] m 0 rfl hss (by simp)
    simpa using this
  have hinv0 : Inv f g m src m [] src [] (List.replicate (newCount src m) none) []
      ⟨m.map some ++ List.replicate (newCount src m) none, src.length, m.length, m.length + newCount src m⟩ :=
    ⟨by simp, by simp, rfl, rfl, by simp, by simp, by simp, sorted_nil, by simp, by simp, by simp [lookup_nil, mergeVal],
      by simp⟩
  obtain ⟨O1, O2, S1, S2, gap, out, s, hrun, hinv, hend⟩ :=
    mergeLoop_spec hms hss (m.length + src.length + 1) _ _ _ _ _ _ _ hinv0 (by simp)
  simp only [mergeInsert, hcount, hrun, bind, Except.bind]
  have htake : src.take s.last = S1 := by rw [hinv.hsrc, hinv.hlast, List.take_left]
  by_cases hlast : s.last = 0
  · have hS1 : S1 = [] := by
      have := hinv.hlast; rw [hlast] at this; exact List.eq_nil_of_length_eq_zero this.symm
    subst hS1
    have hgap : gap = [] := by
      have := hinv.hgap; simp only [newCount, List.filter_nil, List.length_nil] at this
      exact List.eq_nil_of_length_eq_zero this
    subst hgap
    have hsrc : src = S2 := by simpa using hinv.hsrc
    rw [if_pos (Or.inl hlast), htake, hinv.hcells, hinv.hmte]
    have hc := copyBackward_mid (O1.map some) [] (out.map some) [] (O1.length + 0) rfl (by simp)
    simp only [List.length_nil, hc]
    have hr : readRange (O1.map some ++ List.map some [] ++ out.map some) 0 (O1.length + 0) = .ok O1 := by
      have := readRange_mid [] (out.map some) O1 0 O1.length rfl (by simp)
      simpa using this
    simp only [applyNoCollision, hr, bind, Except.bind]
    refine ⟨O1.map (fun e => (e.1, g e.2)) ++ out, ?_, ?_, ?_⟩
    · have : (O1.map fun e => some (e.1, g e.2)) ++ (O1.map some ++ List.map some [] ++ out.map some).drop (O1.length + 0)
          = (O1.map (fun e => (e.1, g e.2)) ++ out).map some := by simp
      rw [this]
      have h2 := readRange_mid [] [] (O1.map (fun e => (e.1, g e.2)) ++ out) 0
        ((O1.map (fun e => (e.1, g e.2)) ++ out).map some).length rfl (by simp)
      simpa using h2
    · rw [sorted_append]
      have hO1s : Sorted O1 := by rw [hinv.hm, sorted_append] at hms; exact hms.1
      refine ⟨sorted_map_snd hO1s, hinv.hout, ?_⟩
      intro x hx y hy
      simp only [List.mem_map] at hx
      obtain ⟨e, he, rfl⟩ := hx
      exact hinv.hO e he y hy
    · intro k
      rw [lookup_append, lookup_map_snd, hinv.hval, ← hsrc, hinv.hm, lookup_append]
      have hO1src : ∀ x ∈ O1, ∀ e ∈ src, x.1 < e.1 := by
        intro x hx e he
        have hsome : lookup out e.1 ≠ none := by
          rw [hinv.hval, ← hsrc, lookup_of_mem hss he]
          cases lookup O2 e.1 <;> simp [mergeVal]
        obtain ⟨w, hw⟩ := Option.ne_none_iff_exists'.mp hsome
        have := hinv.hO x hx _ (mem_of_lookup hw); exact this
      cases hk : lookup O1 k with
      | some v =>
        have := hO1src _ (mem_of_lookup hk)
        rw [if_pos this]; simp
      | none =>
        simp only [Option.map_none, Option.none_or]
        split
        · rename_i hall
          have hO2 : lookup O2 k = none := by
            rw [lookup_eq_none]
            intro x hx hxk
            obtain ⟨y, hy, hle⟩ := hinv.hlow x hx
            have := hall y hy; order
          rw [hO2, lookup_none_of_gt hall]; rfl
        · rfl
  · have hlook : s.look = 0 := by tauto
    have hO1 : O1 = [] := by
      have := hinv.hlook; rw [hlook] at this; exact List.eq_nil_of_length_eq_zero this.symm
    subst hO1
    have hgap : gap.length = S1.length := by
      rw [hinv.hgap, newCount_all (fun _ _ => rfl)]
    have hmte : s.mte = S1.length := by rw [hinv.hmte, hgap]; simp
    have hm : m = O2 := by simpa using hinv.hm
    rw [if_pos (Or.inr (by rw [hmte, hinv.hlast])), htake, hinv.hcells, hmte]
    have hc := copyBackward_mid [] gap (out.map some) S1 S1.length hgap (by simp [hgap])
    simp only [List.nil_append] at hc
    simp only [List.map_nil, List.nil_append, hc]
    have hr : readRange (S1.map some ++ out.map some) 0 S1.length = .ok S1 := by
      have := readRange_mid [] (out.map some) S1 0 S1.length rfl (by simp)
      simpa using this
    simp only [applyNoCollision, hr, bind, Except.bind]
    refine ⟨S1.map (fun e => (e.1, g e.2)) ++ out, ?_, ?_, ?_⟩
    · have : (S1.map fun e => some (e.1, g e.2)) ++ (S1.map some ++ out.map some).drop S1.length
          = (S1.map (fun e => (e.1, g e.2)) ++ out).map some := by simp
      rw [this]
      have h2 := readRange_mid [] [] (S1.map (fun e => (e.1, g e.2)) ++ out) 0
        ((S1.map (fun e => (e.1, g e.2)) ++ out).map some).length rfl (by simp)
      simpa using h2
    · rw [sorted_append]
      have hS1s : Sorted S1 := by rw [hinv.hsrc, sorted_append] at hss; exact hss.1
      refine ⟨sorted_map_snd hS1s, hinv.hout, ?_⟩
      intro x hx y hy
      simp only [List.mem_map] at hx
      obtain ⟨e, he, rfl⟩ := hx
      exact hinv.hS e he y hy
    · intro k
      rw [lookup_append, lookup_map_snd, hinv.hval, ← hm]
      have hlk : lookup src k = (lookup S1 k).or (lookup S2 k) := by rw [hinv.hsrc, lookup_append]
      cases hk : lookup S1 k with
      | some v =>
        have hmem := mem_of_lookup hk
        have hfr := (hinv.fresh (k := k) (fun y hy => hinv.hS (k, v) hmem y hy)).1
        rw [if_neg]
        · rw [hlk, hk, hm, hfr]; simp [mergeVal]
        · intro hall
          have := hall (k, v) (by rw [hinv.hsrc]; simp [hmem])
          simp at this
      | none =>
        rw [hlk, hk]
        simp only [Option.map_none, Option.none_or]
        split
        · rename_i hall
          have hmk : lookup m k = none := by
            rw [lookup_eq_none]
            intro x hx hxk
            rw [hm] at hx
            obtain ⟨y, hy, hle⟩ := hinv.hlow x hx
            have := hall y hy; order
          have hs2 : lookup S2 k = none := by
            have := lookup_none_of_gt hall
            rw [hlk, hk] at this; simpa using this
          rw [hmk, hs2]; rfl
        · rfl

end FM
end QuantiT
