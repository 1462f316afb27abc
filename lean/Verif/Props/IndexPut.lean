import Verif.Props.View
import Verif.Props.BTensorOps
/-
C65: writing at fixed positions.
-/
set_option linter.unusedSectionVars false
namespace QuantiT.BT
open QuantiT.Spec
variable {G R : Type}

theorem outputIndex_eq : ∀ {f : List (Option Nat)} {k : List Nat}, k.length = f.count none →
    (f = [] ∨ f.getLast? = some none) → outputIndex f k = .ok (fillIdx f k)
  | [], k, _, _ => by cases k <;> rfl
  | none :: fs, [], h, _ => by simp at h
  | none :: fs, v :: vs, h, hl => by
    have ih := outputIndex_eq (f := fs) (k := vs) (by simpa using h) (by
      rcases fs with _ | ⟨a, fs⟩
      · exact .inl rfl
      · exact .inr (by simpa using hl))
    simp only [outputIndex, ih, bind, Except.bind, fillIdx]
  | some b :: fs, k, h, hl => by
    have hl' : fs.getLast? = some none := by
      rcases fs with _ | ⟨a, fs⟩
      · simp at hl
      · simpa using hl
    have ih := outputIndex_eq (f := fs) (k := k) (by simpa using h) (.inr hl')
    have hpos : 0 < fs.count none := List.count_pos_iff.mpr (List.mem_of_getLast? hl')
    rcases k with _ | ⟨v, vs⟩
    · simp at h; omega
    · simp only [outputIndex, ih, bind, Except.bind, fillIdx]

theorem chO_count {sh : Shape G} {dims} (h : Picks sh dims) : (chO sh dims).count none = (kept sh dims).length := by
  induction h using picks_induction with
  | nil => rfl
  | free d ds as _ ih => simp [chO, kept, ih]
  | fixed d ds a as b o s _ h1 h2 _ _ _ ih => simp [chO, kept, ih, h1]

theorem chF_last {sh : Shape G} {dims} (h : Picks sh dims) (hl : dims.getLast? = some (-1)) :
    (chF sh dims).getLast? = some none := by
  induction h using picks_induction with
  | nil => simp at hl
  | free d ds as hp ih =>
    rcases hp with _ | ⟨_, _⟩
    · rfl
    · rw [chF, chF] at *
      rw [List.getLast?_cons_cons]
      exact ih (by rwa [List.getLast?_cons_cons] at hl)
  | fixed d ds a as b o s hp h1 h2 _ _ _ ih =>
    rcases hp with _ | ⟨_, _⟩
    · simp at hl; exact absurd hl h1
    · rw [chF, chF] at *
      rw [List.getLast?_cons_cons]
      exact ih (by rwa [List.getLast?_cons_cons] at hl)

theorem sections_fill {sh : Shape G} {dims} (h : Picks sh dims) : ∀ {k : List Nat} {s}, sections (kept sh dims) k = some s →
    ∃ s', sections sh (fillIdx (chF sh dims) k) = some s' := by
  induction h using picks_induction with
  | nil =>
    intro k s hs
    cases k <;> simp [kept, sections] at hs
    exact ⟨[], rfl⟩
  | free d ds as _ ih =>
    intro k s hs
    simp only [kept, if_true] at hs
    rcases k with _ | ⟨k, ks⟩
    · simp [sections] at hs
    · obtain ⟨x, xs, g1, g2, rfl⟩ := sections_cons.mp hs
      obtain ⟨s', g3⟩ := ih g2
      simp only [chF, if_true, fillIdx]
      exact ⟨x :: s', sections_cons.mpr ⟨_, _, g1, g3, rfl⟩⟩
  | fixed d ds a as b o s' _ g1 g2 g3 g4 _ ih =>
    intro k s hs
    simp only [kept, if_neg g1] at hs
    obtain ⟨s'', g5⟩ := ih hs
    simp only [chF, if_neg g1, fillIdx, decompose1_eq g3]
    exact ⟨s' :: s'', sections_cons.mpr ⟨_, _, g4, g5, rfl⟩⟩

/-- The block after writing. -/
def putBlk (w : List (Option Nat)) (b v : Blk R) : Blk R :=
  ⟨b.dims, fun o => if matchesIdx w o then v.f (freeOf w o) else b.f o⟩

theorem putOnce_eq [AddCommMonoid G] [DecidableEq G] [Zero R] {sh : Shape G} {rule : G} {m : FM (List Nat) (Blk R)} {f w : List (Option Nat)}
    {el : List (Option Int)} {kb : List Nat × Blk R} {s} (hs : Sorted m)
    (hk : kb.1.length = f.count none) (hl : f = [] ∨ f.getLast? = some none)
    (hsec : sections sh (fillIdx f kb.1) = some s) (hd : kb.2.dims = freeOf w (s.map Prod.fst))
    (hw : wrapIndices el (s.map Prod.fst) = .ok w)
    (hold : ∀ b, lookup m (fillIdx f kb.1) = some b → b.dims = s.map Prod.fst) :
    ∃ m1, putOnce f el ⟨sh, rule, m⟩ kb = .ok ⟨sh, rule, m1⟩ ∧ Sorted m1 ∧
      ∀ k, lookup m1 k = if k = fillIdx f kb.1 then
        some (putBlk w ((lookup m (fillIdx f kb.1)).getD ⟨s.map Prod.fst, fun _ => 0⟩) kb.2) else lookup m k := by
  have hg := FM.C09_queries hs (fillIdx f kb.1)
  have main : ∀ (m' : FM (List Nat) (Blk R)) (b : Blk R), Sorted m' → lookup m' (fillIdx f kb.1) = some b →
      b.dims = s.map Prod.fst →
      ∃ m1, (do
        let old ← FM.at? m' (fillIdx f kb.1)
        let new ← indexPutEl old el kb.2
        .ok ⟨sh, rule, m'.set (FM.find m' (fillIdx f kb.1)) (fillIdx f kb.1, new)⟩ : Res (BT G R)) = .ok ⟨sh, rule, m1⟩ ∧
        Sorted m1 ∧ ∀ k, lookup m1 k = if k = fillIdx f kb.1 then some (putBlk w b kb.2) else lookup m' k := by
    intro m' b hs' hb hbd
    obtain ⟨a1, a2, a3⟩ := FM.C09_queries hs' (fillIdx f kb.1)
    rw [hb] at a1 a2
    simp only at a1 a2
    have hset := FM.set_eq (v := putBlk w b kb.2) hs' a2
    refine ⟨_, ?_, hset.1, hset.2⟩
    simp only [a1, bind, Except.bind, indexPutEl, hbd, hw, if_pos hd]
    simp only [putBlk, hbd]
  unfold putOnce
  simp only [outputIndex_eq hk hl, bind, Except.bind, hg.2.2]
  rcases hb : lookup m (fillIdx f kb.1) with _ | b
  · simp only [Option.isSome_none, Bool.false_eq_true, if_false]
    rw [blockSizes_eq (t := (⟨sh, rule, m⟩ : BT G R)) hsec]
    have hins := FM.insert_eq hs (fillIdx f kb.1) (⟨s.map Prod.fst, fun _ => 0⟩ : Blk R)
    obtain ⟨m1, q1, q2, q3⟩ := main _ ⟨s.map Prod.fst, fun _ => 0⟩ hins.1 (by rw [hins.2.1, if_pos rfl, hb]; rfl) rfl
    refine ⟨m1, q1, q2, fun k => ?_⟩
    rw [q3, hins.2.1]
    by_cases h : k = fillIdx f kb.1
    · rw [if_pos h, if_pos h]; rfl
    · rw [if_neg h, if_neg h, if_neg h]
  · simp only [Option.isSome_some, if_true]
    exact main m b hs hb (hold b hb)

theorem putFold_eq [AddCommMonoid G] [DecidableEq G] [Zero R] {sh : Shape G} {rule : G} {f w : List (Option Nat)} {el : List (Option Int)}
    (hl : f = [] ∨ f.getLast? = some none) : ∀ (vs m : FM (List Nat) (Blk R)), Sorted m → (vs.map Prod.fst).Nodup →
    (∀ kb ∈ vs, kb.1.length = f.count none ∧ ∃ s, sections sh (fillIdx f kb.1) = some s ∧
      kb.2.dims = freeOf w (s.map Prod.fst) ∧ wrapIndices el (s.map Prod.fst) = .ok w ∧
      ∀ b, lookup m (fillIdx f kb.1) = some b → b.dims = s.map Prod.fst) →
    ∃ m', vs.foldlM (putOnce f el) ⟨sh, rule, m⟩ = .ok ⟨sh, rule, m'⟩ ∧ Sorted m' ∧
      (∀ kb ∈ vs, ∀ s, sections sh (fillIdx f kb.1) = some s → lookup m' (fillIdx f kb.1) =
        some (putBlk w ((lookup m (fillIdx f kb.1)).getD ⟨s.map Prod.fst, fun _ => 0⟩) kb.2)) ∧
      ∀ k, (∀ kb ∈ vs, k ≠ fillIdx f kb.1) → lookup m' k = lookup m k := by
  intro vs
  induction vs with
  | nil => intro m hs _ _; exact ⟨m, rfl, hs, by simp, fun _ _ => rfl⟩
  | cons kb vs ih =>
    intro m hs hn hh
    obtain ⟨hk, s, h1, h2, h3, h4⟩ := hh kb (by simp)
    obtain ⟨m1, p1, p2, p3⟩ := putOnce_eq (rule := rule) hs hk hl h1 h2 h3 h4
    rw [List.map_cons, List.nodup_cons] at hn
    have hne : ∀ kb' ∈ vs, fillIdx f kb'.1 ≠ fillIdx f kb.1 := by
      intro kb' hkb' he
      have hk' := (hh kb' (by simp [hkb'])).1
      have : kb'.1 = kb.1 := by rw [← (freeOf_fillIdx hk').1, he, (freeOf_fillIdx hk).1]
      exact hn.1 (this ▸ List.mem_map_of_mem hkb')
    obtain ⟨m', q1, q2, q3, q4⟩ := ih m1 p2 hn.2 fun kb' hkb' => by
      obtain ⟨g1, s', g2, g3, g4, g5⟩ := hh kb' (by simp [hkb'])
      refine ⟨g1, s', g2, g3, g4, fun b hb => ?_⟩
      rw [p3, if_neg (hne kb' hkb')] at hb
      exact g5 b hb
    refine ⟨m', ?_, q2, ?_, ?_⟩
    · rw [List.foldlM_cons, p1]; exact q1
    · intro kb' hkb' s' hs'
      rcases List.mem_cons.mp hkb' with rfl | hkb'
      · rw [h1] at hs'; cases hs'
        rw [q4 _ fun kb'' h => (hne kb'' h).symm, p3, if_pos rfl]
      · rw [q3 kb' hkb' s' hs', p3, if_neg (hne kb' hkb')]
    · intro k hk'
      rw [q4 k fun kb'' h => hk' kb'' (by simp [h]), p3, if_neg (hk' kb (by simp))]

theorem insertFixed_of_matches {sh : Shape G} {dims} (h : Picks sh dims) : ∀ {e b o : List Nat}, locateAll sh e = some (b, o) →
    matchesIdx (chF sh dims) b = true → matchesIdx (chO sh dims) o = true → ∃ e', e = insertFixed dims e' := by
  induction h using picks_induction with
  | nil =>
    intro e b o hl _ _
    cases e <;> simp [locateAll] at hl
    exact ⟨[], rfl⟩
  | free d ds as _ ih =>
    intro e b o hl hb ho
    rcases e with _ | ⟨e, es⟩
    · simp [locateAll] at hl
    · obtain ⟨x, y, xs, ys, h1, h2, h3⟩ := locateAll_cons.mp hl
      cases h3
      simp only [chF, chO, if_true, matchesIdx] at hb ho
      obtain ⟨e', rfl⟩ := ih h2 hb ho
      exact ⟨e :: e', by simp [insertFixed]⟩
  | fixed d ds a as b' o' s _ g1 g2 g3 g4 _ ih =>
    intro e b o hl hb ho
    rcases e with _ | ⟨e, es⟩
    · simp [locateAll] at hl
    · obtain ⟨x, y, xs, ys, h1, h2, h3⟩ := locateAll_cons.mp hl
      cases h3
      simp only [chF, chO, if_neg g1, matchesIdx, Bool.and_eq_true, decide_eq_true_eq, decompose1_eq g3] at hb ho
      obtain ⟨e', rfl⟩ := ih h2 hb.2 ho.2
      obtain ⟨rfl, _⟩ := hb
      obtain ⟨rfl, _⟩ := ho
      obtain ⟨_, _, _, w1⟩ := locate_iff.mp h1
      obtain ⟨_, _, _, w2⟩ := locate_iff.mp g3
      exact ⟨e', by simp only [insertFixed, if_neg g1]; rw [← w2, ← w1]⟩

/-- C65 when the last dimension is kept: the call returns; where `value` stores a block the slice now holds its
entries; where it does not, and everywhere outside the slice, nothing changed; the result is conserving.  Missing: a
fixed last dimension (`C65_trailing_fails`) and zeroing where `value` stores no block (`C65_absent_fails`). -/
theorem C65_index_put_partial [AddCommGroup G] [DecidableEq G] [Zero R] (t value : BT G R)
    (hc : Conserving t.shape t.rule t.blocks) (hp : Populated t.shape) (dims : List Int) (h : Picks t.shape dims)
    (hlast : dims.getLast? = some (-1)) (hv : Conserving value.shape value.rule value.blocks)
    (hsh : value.shape = kept t.shape dims) (hr : value.rule = t.rule - fixedCharge t.shape dims) :
    ∃ r, basicIndexPut t dims value = .ok r ∧ r.shape = t.shape ∧ r.rule = t.rule ∧ Conserving r.shape r.rule r.blocks ∧
      (∀ e b o, locateAll value.shape e = some (b, o) → entry r.shape r.blocks (insertFixed dims e) =
        if lookup value.blocks b = none then entry t.shape t.blocks (insertFixed dims e)
        else entry value.shape value.blocks e) ∧
      ∀ e, (∀ e', e ≠ insertFixed dims e') → entry r.shape r.blocks e = entry t.shape t.blocks e := by
  have hF := chF_last h hlast
  have hval : ∀ kb ∈ value.blocks, kb.1.length = (chF t.shape dims).count none ∧
      ∃ s, sections t.shape (fillIdx (chF t.shape dims) kb.1) = some s ∧ charge s = t.rule ∧
      kb.2.dims = freeOf (chO t.shape dims) (s.map Prod.fst) ∧
      wrapIndices ((chO t.shape dims).map (Option.map Int.ofNat)) (s.map Prod.fst) = .ok (chO t.shape dims) := by
    intro kb hkb
    obtain ⟨s, g1, g2, g3⟩ := hv.block kb.1 kb.2 hkb
    rw [hsh] at g1
    have hlen : kb.1.length = (chF t.shape dims).count none := by rw [(sections_length g1).1, chF_count h]
    obtain ⟨s', g4⟩ := sections_fill h g1
    obtain ⟨f1, f2⟩ := freeOf_fillIdx hlen
    obtain ⟨r1, r2, r3, r4⟩ := sections_kept h g4 f2
    rw [f1, g1] at r1
    cases r1
    exact ⟨hlen, s', g4, by rw [r2, g2, hr]; abel, by rw [g3, r3], r4⟩
  obtain ⟨m, q1, q2, q3, q4⟩ := putFold_eq (rule := t.rule) (sh := t.shape) (w := chO t.shape dims)
    (el := (chO t.shape dims).map (Option.map Int.ofNat)) (.inr hF) value.blocks t.blocks hc.sorted
    (nodup_of_sorted hv.sorted) (fun kb hkb => by
      obtain ⟨g1, s, g2, g3, g4, g5⟩ := hval kb hkb
      refine ⟨g1, s, g2, g4, g5, fun b hb => ?_⟩
      obtain ⟨s', w1, _, w3⟩ := hc.block _ _ (mem_of_lookup hb)
      rw [g2] at w1; cases w1
      exact w3)
  refine ⟨⟨t.shape, t.rule, m⟩, ?_, rfl, rfl, ⟨q2, ?_⟩, ?_, ?_⟩
  · simp only [basicIndexPut, shapeFrom_eq h hp, bind, Except.bind]
    have : addCheck (⟨kept t.shape dims, t.rule - fixedCharge t.shape dims, []⟩ : BT G R) value = .ok () := by
      simp [addCheck, hsh, hr]
    rw [this]
    simp only [toBlockBasis_fst h, toBlockBasis_snd h]
    exact q1
  · intro k b hkb
    have hk : lookup m k = some b := lookup_of_mem q2 hkb
    by_cases hex : ∃ kb ∈ value.blocks, k = fillIdx (chF t.shape dims) kb.1
    · obtain ⟨kb, hkb', rfl⟩ := hex
      obtain ⟨g1, s, g2, g3, g4, g5⟩ := hval kb hkb'
      rw [q3 kb hkb' s g2] at hk
      cases hk
      refine ⟨s, g2, g3, ?_⟩
      rcases hb : lookup t.blocks (fillIdx (chF t.shape dims) kb.1) with _ | b
      · rfl
      · obtain ⟨s', w1, _, w3⟩ := hc.block _ _ (mem_of_lookup hb)
        rw [g2] at w1; cases w1
        exact w3
    · rw [q4 k fun kb hkb' he => hex ⟨kb, hkb', he⟩] at hk
      exact hc.block _ _ (mem_of_lookup hk)
  · intro e b o hl
    rw [hsh] at hl
    have hl' := locateAll_insertFixed h hl
    obtain ⟨s, g1, g2⟩ := locateAll_sections hl
    have hlen : b.length = (chF t.shape dims).count none := by rw [(sections_length g1).1, chF_count h]
    have holen : o.length = (chO t.shape dims).count none := by
      have := List.Forall₂.length_eq g2
      rw [List.length_map, (sections_length g1).2] at this
      rw [this, chO_count h]
    rcases hb : lookup value.blocks b with _ | v
    · rw [if_pos rfl]
      have : lookup m (fillIdx (chF t.shape dims) b) = lookup t.blocks (fillIdx (chF t.shape dims) b) := by
        refine q4 _ fun kb hkb he => ?_
        have hk := (hval kb hkb).1
        have : b = kb.1 := by rw [← (freeOf_fillIdx hlen).1, he, (freeOf_fillIdx hk).1]
        subst this
        have : lookup value.blocks kb.1 = some kb.2 := lookup_of_mem hv.sorted hkb
        rw [hb] at this; cases this
      simp only [entry, hl', this]
    · rw [if_neg (by simp)]
      obtain ⟨s', g4⟩ := sections_fill h g1
      have := q3 (b, v) (mem_of_lookup hb) s' g4
      rw [hsh]
      simp only [entry, hl', hl, hb, this, putBlk]
      rw [if_pos (freeOf_fillIdx holen).2, (freeOf_fillIdx holen).1]
  · intro e hne
    simp only [entry]
    rcases hl : locateAll t.shape e with _ | ⟨b, o⟩
    · rfl
    · simp only
      by_cases hex : ∃ kb ∈ value.blocks, b = fillIdx (chF t.shape dims) kb.1
      · obtain ⟨kb, hkb, rfl⟩ := hex
        obtain ⟨g1, s, g2, _⟩ := hval kb hkb
        rw [q3 kb hkb s g2]
        have hno : ¬ matchesIdx (chO t.shape dims) o = true := fun hm => by
          obtain ⟨e', he'⟩ := insertFixed_of_matches h hl (freeOf_fillIdx g1).2 hm
          exact hne e' he'
        simp only [putBlk, if_neg hno]
        cases lookup t.blocks (fillIdx (chF t.shape dims) kb.1) <;> rfl
      · rw [q4 b fun kb hkb he => hex ⟨kb, hkb, he⟩]

/-- C65 fails when the last dimension is fixed: the code reads past the end of the value's block index. -/
theorem C65_trailing_fails : ∃ t v : BT ℤ ℤ, Conserving t.shape t.rule t.blocks ∧ Picks t.shape [-1, 0] ∧
    v.shape = kept t.shape [-1, 0] ∧ Conserving v.shape v.rule v.blocks ∧ basicIndexPut t [-1, 0] v = Res.ub := by
  refine ⟨⟨[[(1, 0)], [(1, 0)]], 0, []⟩, ⟨[[(1, 0)]], 0, [([0], ⟨[1], fun _ => 3⟩)]⟩,
    ⟨sorted_nil, by simp⟩, by unfold Picks; decide, rfl, ⟨by unfold Sorted; decide, ?_⟩, by rfl⟩
  intro k b h
  simp only [List.mem_singleton, Prod.mk.injEq] at h
  obtain ⟨rfl, rfl⟩ := h
  exact ⟨[(1, 0)], rfl, rfl, rfl⟩

/-- C65 fails where the value stores no block: its zero is not written. -/
theorem C65_absent_fails : ∃ t v r : BT ℤ ℤ, Conserving t.shape t.rule t.blocks ∧ Picks t.shape [0, -1] ∧
    v.shape = kept t.shape [0, -1] ∧ v.rule = t.rule - fixedCharge t.shape [0, -1] ∧
    Conserving v.shape v.rule v.blocks ∧ basicIndexPut t [0, -1] v = .ok r ∧
    entry r.shape r.blocks (insertFixed [0, -1] [0]) ≠ entry v.shape v.blocks [0] := by
  refine ⟨⟨[[(1, 0)], [(1, 0)]], 0, [([0, 0], ⟨[1, 1], fun _ => 3⟩)]⟩, ⟨[[(1, 0)]], 0, []⟩, _,
    ⟨by unfold Sorted; decide, ?_⟩, by unfold Picks; decide, rfl, rfl, ⟨sorted_nil, by simp⟩, rfl, by decide⟩
  intro k b h
  simp only [List.mem_singleton, Prod.mk.injEq] at h
  obtain ⟨rfl, rfl⟩ := h
  exact ⟨[(1, 0), (1, 0)], rfl, rfl, rfl⟩

/-- The hypotheses are met: writing a row of `ex18`. -/
example : ∃ r, basicIndexPut ex18 [2, -1] ⟨[[(1, 0), (2, -1)]], -1, [([1], ⟨[2], fun _ => 9⟩)]⟩ = .ok r ∧
    entry r.shape r.blocks [2, 1] = 9 := by
  obtain ⟨r, h1, _, _, _, h5, _⟩ := C65_index_put_partial ex18 ⟨[[(1, 0), (2, -1)]], -1, [([1], ⟨[2], fun _ => 9⟩)]⟩
    ex18_conserving (by unfold Populated; decide) [2, -1] (by unfold Picks; decide) rfl
    ⟨by unfold Sorted; decide, by
      intro k b h
      simp only [List.mem_singleton, Prod.mk.injEq] at h
      obtain ⟨rfl, rfl⟩ := h
      exact ⟨[(2, -1)], rfl, by decide, rfl⟩⟩ rfl (by decide)
  refine ⟨r, h1, ?_⟩
  have := h5 [1] [1] [0] (by decide)
  rw [if_neg (by simp [lookup])] at this
  exact this

end QuantiT.BT
