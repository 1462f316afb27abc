import Verif.Lemmas.FlatMapMerge
set_option linter.unusedSectionVars false
namespace QuantiT
open Spec
variable {K V : Type _} [LinearOrder K]
namespace FM

theorem split_at {α : Type _} {m : List α} {i : Nat} (h : i < m.length) : m = m.take i ++ m[i] :: m.drop (i + 1) := by
  conv_lhs => rw [← List.take_append_drop i m, List.drop_eq_getElem_cons h]

/-- Non-decreasing keys. -/
def WSorted (l : FM K V) : Prop := l.Pairwise (fun a b => ¬ b.1 < a.1)

theorem length_dropWhile_le {α : Type _} (p : α → Bool) (l : List α) : (l.dropWhile p).length ≤ l.length :=
  (List.dropWhile_sublist p).length_le

/-- One representative per group of equal keys of a sorted list. -/
def dedupe (col : K × V → K × V → V) : FM K V → FM K V
  | [] => []
  | x :: xs => collide col x (xs.takeWhile fun e => !decide (x.1 < e.1)) ::
      dedupe col (xs.dropWhile fun e => !decide (x.1 < e.1))
termination_by l => l.length
decreasing_by
  have := length_dropWhile_le (fun e : K × V => !decide (x.1 < e.1)) xs
  simp; omega

theorem collide_fst (col : K × V → K × V → V) (rep : K × V) (grp : List (K × V)) :
    (collide col rep grp).1 = rep.1 := by
  induction grp generalizing rep with
  | nil => rfl
  | cons x g ih => simp only [collide, List.foldl_cons] at ih ⊢; rw [ih]

theorem filterLoop_spec (col : K × V → K × V → V) :
    ∀ (fuel : Nat) (done : FM K V) (rep : K × V) (junk grp rest : FM K V),
      rest.length < fuel → WSorted rest → (∀ x ∈ junk ++ grp, ∀ y ∈ rest, ¬ y.1 < x.1) →
      ∃ arr' l', filterLoop col fuel (done ++ rep :: junk ++ grp ++ rest) done.length (done.length + junk.length)
          (done.length + junk.length + 1 + grp.length) = .ok (arr', l') ∧
        arr'.take l' = done ++ collide col rep grp :: dedupe col rest
  | 0, _, _, _, _, _, h, _, _ => by omega
  | fuel + 1, done, rep, junk, grp, rest, hf, hw, hle => by
    have hlen : (done ++ rep :: junk ++ grp ++ rest).length
        = done.length + junk.length + 1 + grp.length + rest.length := by simp; omega
    have hget : (done ++ rep :: junk ++ grp ++ rest)[done.length]? = some rep := by
      rw [List.append_assoc, List.append_assoc, List.cons_append]; simp
    have hgrp : ((done ++ rep :: junk ++ grp ++ rest).take (done.length + junk.length + 1 + grp.length)).drop
        (done.length + junk.length + 1) = grp := by
      have e1 : done.length + junk.length + 1 + grp.length = (done ++ rep :: junk ++ grp).length := by
        simp; omega
      have e2 : done.length + junk.length + 1 = (done ++ rep :: junk).length := by simp; omega
      rw [e1, List.take_left, e2, List.drop_left]
    have hset : (done ++ rep :: junk ++ grp ++ rest).set done.length (collide col rep grp)
        = done ++ collide col rep grp :: junk ++ grp ++ rest := by
      rw [List.append_assoc, List.append_assoc, List.cons_append, set_mid _ _ _ _ _ rfl]; simp
    simp only [filterLoop]
    rw [if_neg (by rw [hlen]; omega), hget]
    simp only [hgrp, hset]
    cases rest with
    | nil =>
      rw [if_pos (by rw [hlen]; simp)]
      refine ⟨_, _, rfl, ?_⟩
      have : done.length + 1 = (done ++ [collide col rep grp]).length := by simp
      rw [this, show done ++ collide col rep grp :: junk ++ grp ++ []
        = (done ++ [collide col rep grp]) ++ (junk ++ grp) by simp, List.take_left]
      simp [dedupe]
    | cons y ys =>
      rw [if_neg (by rw [hlen]; simp)]
      have hgety : (done ++ collide col rep grp :: junk ++ grp ++ y :: ys)[done.length + junk.length + 1 + grp.length]?
          = some y := by
        have : done.length + junk.length + 1 + grp.length = (done ++ collide col rep grp :: junk ++ grp).length := by
          simp; omega
        rw [this]; simp
      rw [WSorted, List.pairwise_cons] at hw
      have hws : WSorted (ys.takeWhile (fun e => !decide (y.1 < e.1)) ++ ys.dropWhile (fun e => !decide (y.1 < e.1))) := by
        rw [List.takeWhile_append_dropWhile]; exact hw.2
      rw [WSorted, List.pairwise_append] at hws
      have hrestlen : (ys.dropWhile fun e => !decide (y.1 < e.1)).length < fuel := by
        have := length_dropWhile_le (fun e : K × V => !decide (y.1 < e.1)) ys
        simp at hf; omega
      have hdd : dedupe col (y :: ys) = collide col y (ys.takeWhile fun e => !decide (y.1 < e.1)) ::
          dedupe col (ys.dropWhile fun e => !decide (y.1 < e.1)) := by rw [dedupe]
      have hys : ys = ys.takeWhile (fun e => !decide (y.1 < e.1)) ++ ys.dropWhile (fun e => !decide (y.1 < e.1)) :=
        List.takeWhile_append_dropWhile.symm
      have hdropmem : ∀ z ∈ ys.dropWhile (fun e => !decide (y.1 < e.1)), z ∈ y :: ys := fun z hz =>
        List.mem_cons_of_mem _ ((List.dropWhile_sublist _).mem hz)
      rw [hgety]
      rcases hJ : junk ++ grp with _ | ⟨j, J⟩
      · obtain ⟨rfl, rfl⟩ := List.append_eq_nil_iff.mp hJ
        have hgl : (done ++ collide col rep [] :: [] ++ [] ++ y :: ys)[done.length + 1]? = some y := by
          simpa using hgety
        rw [hgl]
        simp only
        have hsame : ((done ++ collide col rep [] :: [] ++ [] ++ y :: ys).set (done.length + 1) y).set
            (done.length + (0:Nat) + 1 + 0) y = (done ++ [collide col rep []]) ++ y :: [] ++
              ys.takeWhile (fun e => !decide (y.1 < e.1)) ++ ys.dropWhile (fun e => !decide (y.1 < e.1)) := by
          conv_rhs => rw [List.append_assoc, ← hys]
          rw [show done ++ collide col rep [] :: [] ++ [] ++ y :: ys = (done ++ [collide col rep []]) ++ y :: ys by simp,
            set_mid _ _ _ _ _ (by simp), set_mid _ _ _ _ _ (by simp)]; simp
        simp only [List.length_nil] at hsame ⊢
        rw [hsame]
        have hub : upperBound (((done ++ [collide col rep []]) ++ y :: [] ++
              ys.takeWhile (fun e => !decide (y.1 < e.1)) ++ ys.dropWhile (fun e => !decide (y.1 < e.1))).drop
              (done.length + 0 + 1 + 0)) y.1 = 1 + (ys.takeWhile (fun e => !decide (y.1 < e.1))).length := by
          have : done.length + 0 + 1 + 0 = (done ++ [collide col rep []]).length := by simp
          rw [this, List.append_assoc, ← hys, List.append_assoc, List.drop_left]
          simp [upperBound]; omega
        rw [hub]
        obtain ⟨arr', l', h1, h2⟩ := filterLoop_spec col fuel (done ++ [collide col rep []]) y []
          (ys.takeWhile fun e => !decide (y.1 < e.1)) (ys.dropWhile fun e => !decide (y.1 < e.1)) hrestlen hws.2.1
          (by intro x hx z hz; exact hws.2.2 x (by simpa using hx) z hz)
        refine ⟨arr', l', ?_, ?_⟩
        · rw [← h1]; congr 1; · simp
          · simp
          · simp; omega
        · rw [h2, hdd]; simp
      · have hgl : (done ++ collide col rep grp :: junk ++ grp ++ y :: ys)[done.length + 1]? = some j := by
          rw [show done ++ collide col rep grp :: junk ++ grp ++ y :: ys
            = (done ++ [collide col rep grp]) ++ ((junk ++ grp) ++ y :: ys) by simp, hJ]
          have : done.length + 1 = (done ++ [collide col rep grp]).length := by simp
          rw [this]; simp
        rw [hgl]
        simp only
        have hJlen : junk.length + grp.length = J.length + 1 := by
          have := congrArg List.length hJ; simpa using this
        have hset2 : ((done ++ collide col rep grp :: junk ++ grp ++ y :: ys).set (done.length + 1) y).set
            (done.length + junk.length + 1 + grp.length) j
            = (done ++ [collide col rep grp]) ++ y :: (J ++ [j]) ++
              ys.takeWhile (fun e => !decide (y.1 < e.1)) ++ ys.dropWhile (fun e => !decide (y.1 < e.1)) := by
          conv_rhs => rw [List.append_assoc, ← hys]
          rw [show done ++ collide col rep grp :: junk ++ grp ++ y :: ys
            = (done ++ [collide col rep grp]) ++ ((junk ++ grp) ++ y :: ys) by simp, hJ, List.cons_append,
            set_mid _ _ _ _ _ (by simp), ← List.cons_append, ← List.append_assoc,
            set_mid _ _ _ _ _ (by simp; omega)]; simp
        rw [hset2]
        have hjy : ¬ y.1 < j.1 := hle j (by rw [hJ]; simp) y (by simp)
        have hub : upperBound (((done ++ [collide col rep grp]) ++ y :: (J ++ [j]) ++
              ys.takeWhile (fun e => !decide (y.1 < e.1)) ++ ys.dropWhile (fun e => !decide (y.1 < e.1))).drop
              (done.length + junk.length + 1 + grp.length)) y.1
              = 1 + (ys.takeWhile (fun e => !decide (y.1 < e.1))).length := by
          have : done.length + junk.length + 1 + grp.length = ((done ++ [collide col rep grp]) ++ y :: J).length := by
            simp; omega
          rw [this, List.append_assoc _ (List.takeWhile _ _) _, ← hys,
            show (done ++ [collide col rep grp]) ++ y :: (J ++ [j]) ++ ys
              = ((done ++ [collide col rep grp]) ++ y :: J) ++ j :: ys by simp, List.drop_left]
          simp [upperBound, hjy]; omega
        rw [hub]
        obtain ⟨arr', l', h1, h2⟩ := filterLoop_spec col fuel (done ++ [collide col rep grp]) y (J ++ [j])
          (ys.takeWhile fun e => !decide (y.1 < e.1)) (ys.dropWhile fun e => !decide (y.1 < e.1)) hrestlen hws.2.1
          (by
            intro x hx z hz
            rcases List.mem_append.mp hx with hx | hx
            · exact hle x (by rw [hJ]; simp at hx ⊢; tauto) z (hdropmem z hz)
            · exact hws.2.2 x hx z hz)
        refine ⟨arr', l', ?_, ?_⟩
        · rw [← h1]; congr 1
          · simp
          · simp; omega
          · simp; omega
        · rw [h2, hdd]; simp

/-- On a sorted non-empty range the in-place filter keeps exactly one representative per key. -/
theorem filterUnique_eq (col : K × V → K × V → V) {arr : FM K V} (h : WSorted arr) (hne : arr ≠ []) :
    filterUnique col arr = .ok (dedupe col arr) := by
  cases arr with
  | nil => exact absurd rfl hne
  | cons x xs =>
    rw [WSorted, List.pairwise_cons] at h
    have hws : WSorted (xs.takeWhile (fun e => !decide (x.1 < e.1)) ++ xs.dropWhile (fun e => !decide (x.1 < e.1))) := by
      rw [List.takeWhile_append_dropWhile]; exact h.2
    rw [WSorted, List.pairwise_append] at hws
    have hl := length_dropWhile_le (fun e : K × V => !decide (x.1 < e.1)) xs
    obtain ⟨arr', l', h1, h2⟩ := filterLoop_spec col ((x :: xs).length + 1) [] x []
      (xs.takeWhile fun e => !decide (x.1 < e.1)) (xs.dropWhile fun e => !decide (x.1 < e.1))
      (by simp; omega) hws.2.1 (by intro a ha b hb; exact hws.2.2 a (by simpa using ha) b hb)
    have hxs : xs.takeWhile (fun e => !decide (x.1 < e.1)) ++ xs.dropWhile (fun e => !decide (x.1 < e.1)) = xs :=
      List.takeWhile_append_dropWhile
    simp only [List.nil_append, List.append_nil, List.cons_append, List.length_nil, hxs] at h1 h2
    have hub : upperBound (x :: xs) x.1 = 0 + 0 + 1 + (xs.takeWhile fun e => !decide (x.1 < e.1)).length := by
      simp [upperBound]; omega
    simp only [filterUnique, hub]
    rw [h1]
    simp only [bind, Except.bind, h2]
    rw [dedupe]

theorem dedupe_spec (col : K × V → K × V → V) : ∀ (n : Nat) (l : FM K V), l.length ≤ n → WSorted l →
    Sorted (dedupe col l) ∧ (∀ e ∈ dedupe col l, ∃ e' ∈ l, e'.1 = e.1) ∧
    ∀ k, lookup (dedupe col l) k = match l.filter (fun e => e.1 = k) with
      | [] => none
      | x :: xs => some (collide col x xs).2
  | n, [], _, _ => by simp [dedupe, sorted_nil, lookup_nil]
  | 0, x :: xs, h, _ => by simp at h
  | n + 1, x :: xs, hn, hw => by
    rw [WSorted, List.pairwise_cons] at hw
    have hxs : xs.takeWhile (fun e => !decide (x.1 < e.1)) ++ xs.dropWhile (fun e => !decide (x.1 < e.1)) = xs :=
      List.takeWhile_append_dropWhile
    have hws : WSorted (xs.takeWhile (fun e => !decide (x.1 < e.1)) ++ xs.dropWhile (fun e => !decide (x.1 < e.1))) := by
      rw [hxs]; exact hw.2
    have hA : ∀ a ∈ xs.takeWhile (fun e => !decide (x.1 < e.1)), a.1 = x.1 := by
      intro a ha
      have h1 := List.all_eq_true.mp (List.all_takeWhile (p := fun e : K × V => !decide (x.1 < e.1)) (l := xs)) a ha
      simp only [Bool.not_eq_true', decide_eq_false_iff_not] at h1
      have h2 := hw.1 a ((List.takeWhile_sublist _).mem ha)
      order
    have hl := length_dropWhile_le (fun e : K × V => !decide (x.1 < e.1)) xs
    have hBhead : ∀ b ∈ xs.dropWhile (fun e => !decide (x.1 < e.1)), x.1 < b.1 := by
      have hw2 := (List.pairwise_append.mp hws).2.1
      rcases hB : xs.dropWhile (fun e => !decide (x.1 < e.1)) with _ | ⟨b, B⟩
      · rw [hB]; simp
      · have hb := List.head_dropWhile_not (fun e : K × V => !decide (x.1 < e.1)) (l := xs) (by simp [hB])
        simp only [hB, List.head_cons, Bool.not_eq_false', decide_eq_true_eq] at hb
        rw [hB, List.pairwise_cons] at hw2
        intro y hy
        rw [hB] at hy
        rcases List.mem_cons.mp hy with rfl | hy
        · exact hb
        · have := hw2.1 y hy; order
    generalize hAe : xs.takeWhile (fun e => !decide (x.1 < e.1)) = A at *
    generalize hBe : xs.dropWhile (fun e => !decide (x.1 < e.1)) = B at *
    obtain ⟨ih1, ih2, ih3⟩ := dedupe_spec col n B (by simp at hn; omega) (List.pairwise_append.mp hws).2.1
    rw [dedupe, hAe, hBe]
    refine ⟨?_, ?_, ?_⟩
    · rw [sorted_cons]
      refine ⟨?_, ih1⟩
      intro y hy
      obtain ⟨e', he', h'⟩ := ih2 y hy
      rw [collide_fst, ← h']; exact hBhead e' he'
    · intro e he
      rcases List.mem_cons.mp he with rfl | he
      · exact ⟨x, by simp, (collide_fst _ _ _).symm⟩
      · obtain ⟨e', he', h'⟩ := ih2 e he
        exact ⟨e', by rw [← hxs]; simp [he'], h'⟩
    · intro k
      rw [lookup_cons, collide_fst, ← hxs]
      by_cases hk : x.1 = k
      · subst hk
        have h1 : A.filter (fun e => decide (e.1 = x.1)) = A := by
          rw [List.filter_eq_self]; intro a ha; simp [hA a ha]
        have h2 : B.filter (fun e => decide (e.1 = x.1)) = [] := by
          rw [List.filter_eq_nil_iff]; intro b hb; have := hBhead b hb; simp only [decide_eq_true_eq]; intro; order
        simp [h1, h2]
      · have h1 : A.filter (fun e => decide (e.1 = k)) = [] := by
          rw [List.filter_eq_nil_iff]; intro a ha; simp [hA a ha, hk]
        simp only [hk, if_false, List.filter_cons, List.filter_append, h1, decide_false, Bool.false_eq_true,
          List.nil_append]
        exact ih3 k

end FM
end QuantiT
