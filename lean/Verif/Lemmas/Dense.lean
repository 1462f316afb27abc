import Verif.Lemmas.BTensor
/-
Element positions and dense conversion.
-/
set_option linter.unusedSectionVars false
namespace QuantiT.BT
open QuantiT.Spec
variable {G R : Type}

theorem dimSize_cons (s : Nat × G) (d : Dim G) : dimSize (s :: d) = s.1 + dimSize d := by simp [dimSize]

theorem dimSize_nil : dimSize ([] : Dim G) = 0 := rfl

theorem locate_iff {d : Dim G} {e b o : Nat} :
    locate d e = some (b, o) ↔ ∃ s, d[b]? = some s ∧ o < s.1 ∧ dimSize (d.take b) + o = e := by
  induction d generalizing e b with
  | nil => simp [locate]
  | cons s d ih =>
    simp only [locate]
    by_cases h : e < s.1
    · rw [if_pos h]
      constructor
      · intro h1; cases h1
        exact ⟨s, rfl, h, by simp [dimSize]⟩
      · rintro ⟨s', h1, h2, h3⟩
        rcases b with _ | b
        · simp [dimSize] at h3; simp [h3]
        · rw [List.take_succ_cons, dimSize_cons] at h3; omega
    · rw [if_neg h]
      rcases b with _ | b
      · constructor
        · intro h1
          obtain ⟨p, _, hp⟩ := Option.map_eq_some_iff.mp h1
          simp at hp
        · rintro ⟨s', h1, h2, h3⟩
          simp at h1; subst h1
          simp [dimSize] at h3; omega
      · have : (Option.map (fun p : Nat × Nat => (p.1 + 1, p.2)) (locate d (e - s.1)) = some (b + 1, o)) ↔
            locate d (e - s.1) = some (b, o) := by
          rw [Option.map_eq_some_iff]
          constructor
          · rintro ⟨⟨x, y⟩, h1, h2⟩; simp at h2; rw [h1, h2.1, h2.2]
          · intro h1; exact ⟨_, h1, rfl⟩
        rw [this, ih]
        simp only [List.getElem?_cons_succ, List.take_succ_cons, dimSize_cons]
        constructor
        · rintro ⟨s', h1, h2, h3⟩; exact ⟨s', h1, h2, by omega⟩
        · rintro ⟨s', h1, h2, h3⟩; exact ⟨s', h1, h2, by omega⟩

theorem locate_isSome {d : Dim G} {e : Nat} : (∃ p, locate d e = some p) ↔ e < dimSize d := by
  induction d generalizing e with
  | nil => simp [locate, dimSize]
  | cons s d ih =>
    simp only [locate, dimSize_cons]
    by_cases h : e < s.1
    · rw [if_pos h]; constructor
      · intro _; omega
      · intro _; exact ⟨_, rfl⟩
    · rw [if_neg h]
      constructor
      · rintro ⟨p, hp⟩
        obtain ⟨q, hq, _⟩ := Option.map_eq_some_iff.mp hp
        have := ih.mp ⟨q, hq⟩; omega
      · intro h2
        obtain ⟨q, hq⟩ := ih.mpr (show e - s.1 < dimSize d by omega)
        exact ⟨_, by rw [hq]; rfl⟩

theorem decompose1_eq {d : Dim G} {e : Nat} {p} (h : locate d e = some p) : decompose1 d e = p := by
  induction d generalizing e p with
  | nil => simp [locate] at h
  | cons s d ih =>
    simp only [locate] at h
    simp only [decompose1]
    by_cases hc : e < s.1
    · rw [if_pos hc] at h; rw [if_neg (by omega)]; simpa using h
    · rw [if_neg hc] at h; rw [if_pos (by omega)]
      obtain ⟨q, hq, rfl⟩ := Option.map_eq_some_iff.mp h
      rw [ih hq]

theorem locateAll_cons {d : Dim G} {ds : Shape G} {e : Nat} {es : List Nat} {p} :
    locateAll (d :: ds) (e :: es) = some p ↔
      ∃ b o bs os, locate d e = some (b, o) ∧ locateAll ds es = some (bs, os) ∧ p = (b :: bs, o :: os) := by
  simp only [locateAll]
  constructor
  · intro h
    split at h
    · rename_i q r h1 h2; exact ⟨q.1, q.2, r.1, r.2, h1, h2, by simpa using h.symm⟩
    · cases h
  · rintro ⟨b, o, bs, os, h1, h2, rfl⟩
    simp [h1, h2]

theorem locateAll_isSome : ∀ {shape : Shape G} {e : List Nat},
    (∃ p, locateAll shape e = some p) ↔ InRange e (shape.map dimSize)
  | [], [] => by simp [locateAll, InRange]
  | [], _ :: _ => by simp [locateAll, InRange]
  | _ :: _, [] => by simp [locateAll, InRange]
  | d :: ds, e :: es => by
    have ih := locateAll_isSome (shape := ds) (e := es)
    simp only [InRange, List.map_cons, List.forall₂_cons] at ih ⊢
    rw [← ih, ← locate_isSome]
    constructor
    · rintro ⟨p, hp⟩
      obtain ⟨b, o, bs, os, h1, h2, rfl⟩ := locateAll_cons.mp hp
      exact ⟨⟨_, h1⟩, ⟨_, h2⟩⟩
    · rintro ⟨⟨p, h1⟩, ⟨q, h2⟩⟩
      exact ⟨_, locateAll_cons.mpr ⟨p.1, p.2, q.1, q.2, h1, h2, rfl⟩⟩

theorem locateAll_sections : ∀ {shape : Shape G} {e b o : List Nat}, locateAll shape e = some (b, o) →
    ∃ secs, sections shape b = some secs ∧ InRange o (secs.map Prod.fst)
  | [], [], b, o, h => by simp [locateAll] at h; simp [h, sections, InRange]
  | [], _ :: _, _, _, h => by simp [locateAll] at h
  | _ :: _, [], _, _, h => by simp [locateAll] at h
  | d :: ds, e :: es, b, o, h => by
    obtain ⟨b, o, bs, os, h1, h2, h3⟩ := locateAll_cons.mp h
    cases h3
    obtain ⟨s, hs1, hs2, _⟩ := locate_iff.mp h1
    obtain ⟨secs, hr1, hr2⟩ := locateAll_sections h2
    exact ⟨s :: secs, sections_cons.mpr ⟨_, _, hs1, hr1, rfl⟩, .cons hs2 hr2⟩

theorem decompose_eq : ∀ {shape : Shape G} {e : List Nat} {p}, locateAll shape e = some p →
    decompose shape e = .ok p
  | [], [], p, h => by simp [locateAll] at h; subst h; rfl
  | [], _ :: _, _, h => by simp [locateAll] at h
  | _ :: _, [], _, h => by simp [locateAll] at h
  | d :: ds, e :: es, p, h => by
    obtain ⟨b, o, bs, os, h1, h2, rfl⟩ := locateAll_cons.mp h
    simp only [decompose, decompose_eq h2, decompose1_eq h1]; rfl

/-- The region of a block is the set of multi-indices located in it. -/
theorem fullSlice_eq : ∀ {shape : Shape G} {k : List Nat} {secs}, sections shape k = some secs →
    ∃ sl, fullSlice shape k = .ok sl ∧ sl.map (fun s => s.2 - s.1) = secs.map Prod.fst ∧
      (∀ e, inSlices sl e = true ↔ locateAll shape e = some (k, List.zipWith (fun x s => x - s.1) e sl)) ∧
      (∀ o, InRange o (secs.map Prod.fst) →
        locateAll shape (List.zipWith (fun x s => s.1 + x) o sl) = some (k, o)) ∧
      List.Forall₂ (fun n s => s.1 ≤ n ∧ s.2 ≤ n) (shape.map dimSize) sl ∧
      (∀ e o, locateAll shape e = some (k, o) → inSlices sl e = true)
  | [], [], secs, h => by
    simp [sections] at h; subst h
    refine ⟨[], rfl, rfl, ?_, ?_, .nil, ?_⟩
    · intro e; cases e <;> simp [inSlices, locateAll]
    · intro o ho; cases ho; rfl
    · intro e o; cases e <;> simp [inSlices, locateAll]
  | [], _ :: _, _, h => by simp [sections] at h
  | _ :: _, [], _, h => by simp [sections] at h
  | d :: ds, b :: bs, secs, h => by
    obtain ⟨s, r, h1, h2, rfl⟩ := sections_cons.mp h
    obtain ⟨sl, g1, g2, g3, g4, g5, g6⟩ := fullSlice_eq h2
    refine ⟨(dimSize (d.take b), dimSize (d.take b) + s.1) :: sl, ?_, ?_, ?_, ?_, ?_, ?_⟩
    · simp only [fullSlice, h1, g1, foldl_add_zero]; rfl
    · simp [g2]
    · intro e
      rcases e with _ | ⟨e, es⟩
      · simp [inSlices, locateAll]
      · simp only [inSlices, Bool.and_eq_true, decide_eq_true_eq, g3, List.zipWith_cons_cons]
        rw [locateAll_cons]
        constructor
        · rintro ⟨⟨ha, hb⟩, hc⟩
          refine ⟨b, e - dimSize (d.take b), _, _, locate_iff.mpr ⟨s, h1, by omega, by omega⟩, hc, rfl⟩
        · rintro ⟨b', o', bs', os', ha, hb, hc⟩
          simp only [Prod.mk.injEq, List.cons.injEq] at hc
          obtain ⟨⟨rfl, rfl⟩, hc3, hc4⟩ := hc
          obtain ⟨s', hs1, hs2, hs3⟩ := locate_iff.mp ha
          rw [h1] at hs1; cases hs1
          refine ⟨⟨by omega, by omega⟩, ?_⟩
          rw [hb, hc4]
    · intro o ho
      rcases o with _ | ⟨o, os⟩
      · cases ho
      · obtain ⟨ho1, ho2⟩ := List.forall₂_cons.mp ho
        simp only [List.zipWith_cons_cons]
        exact locateAll_cons.mpr ⟨b, o, bs, os, locate_iff.mpr ⟨s, h1, ho1, rfl⟩, g4 os ho2, rfl⟩
    · refine .cons ?_ g5
      have hd : dimSize d = dimSize (d.take b) + s.1 + dimSize (d.drop (b + 1)) := by
        obtain ⟨hb, hg⟩ := List.getElem?_eq_some_iff.mp h1
        conv_lhs => rw [FM.split_at hb, hg]
        simp [dimSize, Nat.add_assoc]
      simp only; omega
    · intro e o he
      rcases e with _ | ⟨e, es⟩
      · simp [locateAll] at he
      · obtain ⟨b', o', bs', os', ha, hb, hc⟩ := locateAll_cons.mp he
        simp only [Prod.mk.injEq, List.cons.injEq] at hc
        obtain ⟨⟨rfl, rfl⟩, _⟩ := hc
        obtain ⟨s', hs1, hs2, hs3⟩ := locate_iff.mp ha
        rw [h1] at hs1; cases hs1
        simp only [inSlices, Bool.and_eq_true, decide_eq_true_eq]
        exact ⟨⟨by omega, by omega⟩, g6 _ _ hb⟩

variable [AddCommMonoid G] [DecidableEq G] [Zero R]

/-- Folding region assignments over blocks with distinct allowed keys. -/
theorem toDense_fold {shape : Shape G} : ∀ (bl : FM (List Nat) (Blk R)) (out : Blk R), Sorted bl →
    (∀ k b, (k, b) ∈ bl → ∃ secs, sections shape k = some secs ∧ b.dims = secs.map Prod.fst) →
    ∃ d, bl.foldlM (fun out kb => do
      let sl ← fullSlice shape kb.1
      indexPut out sl kb.2) out = .ok d ∧ d.dims = out.dims ∧
      ∀ e, d.f e = match locateAll shape e with
        | none => out.f e
        | some p => match lookup bl p.1 with
          | none => out.f e
          | some b => b.f p.2
  | [], out, _, _ => ⟨out, rfl, rfl, by intro e; cases locateAll shape e <;> simp [lookup_nil]⟩
  | (k, b) :: bl, out, hs, hb => by
    obtain ⟨secs, hsec, hdims⟩ := hb k b (by simp)
    obtain ⟨sl, g1, g2, g3, g4, g5, g6⟩ := fullSlice_eq hsec
    obtain ⟨hk, hs'⟩ := sorted_cons.mp hs
    obtain ⟨d, hd1, hd2, hd3⟩ := toDense_fold bl
      ⟨out.dims, fun e => if inSlices sl e then b.f (List.zipWith (fun x s => x - s.1) e sl) else out.f e⟩ hs'
      (fun k' b' h => hb k' b' (by simp [h]))
    refine ⟨d, ?_, hd2, ?_⟩
    · rw [List.foldlM_cons]
      have : (fullSlice shape k >>= fun sl => indexPut out sl b) = Except.ok ⟨out.dims, fun e => if inSlices sl e then b.f (List.zipWith (fun x s => x - s.1) e sl) else out.f e⟩ := by
        rw [g1]
        show indexPut out sl b = _
        simp only [indexPut]
        rw [if_pos (by rw [hdims, g2])]
      show (fullSlice shape k >>= fun sl => indexPut out sl b) >>= _ = _
      rw [this]
      exact hd1
    · intro e
      rw [hd3]
      rcases hl : locateAll shape e with _ | ⟨b', o'⟩
      · have : ¬ inSlices sl e = true := by rw [g3, hl]; simp
        simp [this]
      · simp only
        rw [lookup_cons]
        by_cases hkb : k = b'
        · subst hkb
          have hn : lookup bl k = none := lookup_none_of_gt hk
          have hin : inSlices sl e = true := g6 _ _ hl
          have ho : List.zipWith (fun x s => x - s.1) e sl = o' := by
            have := (g3 e).mp hin
            rw [hl] at this; simpa using this.symm
          simp [hn, hin, ho]
        · have : ¬ inSlices sl e = true := by
            rw [g3, hl]; simp [Ne.symm hkb]
          simp [this, hkb]

end QuantiT.BT
