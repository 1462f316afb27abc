import Verif.Props.CutRun
import Verif.Props.DescentEx
import Verif.Lemmas.SvdInst
/-
Cases that meet the hypotheses of C86 and C87, with every cutoff and every limits of the bond.
-/
namespace QuantiT
namespace DM
open Finset Spec MP

/-- The ground states are product states: nothing is lost when they are truncated. -/
theorem flip_lossless {s s' : List (Blk ℝ)} {v : List Nat → ℝ} {cutoff w : ℝ} {minB maxB : Nat} (hF : Fit s flipOp s) (hc : Closed s)
    (hp : phys s = [2, 2]) (hE : vecEnergy flipOp [2, 2] v ≤ -1) (ht : Truncation [2, 2] v s s' 0 cutoff minB maxB w) :
    w = 0 ∧ bondAt s' 0 ≤ 2 := by
  have hn := ht.norm
  unfold vecNormSq at hn
  unfold vecEnergy at hE
  simp only [sum_two_two, flip_entry] at hn hE
  simp at hn hE
  have h0 : v [1, 0] = - v [0, 0] := by nlinarith [sq_nonneg (v [0, 0] + v [1, 0]), sq_nonneg (v [0, 1] + v [1, 1])]
  have h1 : v [1, 1] = - v [0, 1] := by nlinarith [sq_nonneg (v [0, 0] + v [1, 0]), sq_nonneg (v [0, 1] + v [1, 1])]
  obtain ⟨A, B, rfl⟩ := List.length_eq_two.1 (show s.length = 2 by have := congrArg List.length hp; simpa [phys] using this)
  obtain ⟨_, _, _, A0, B0, n, i, m, j, n', g1, g2, g3, g4, _, _⟩ := ht.pair
  cases g1; cases g2
  have e1 : n = 1 := by have := hc.1; simpa [leftEnd, g3] using this
  have e2 : n' = 1 := by have := hc.2; simpa [rightEnd, g4] using this
  obtain ⟨e3, e4⟩ : i = 2 ∧ j = 2 := by simpa [phys, g3, g4] using hp
  subst e1 e2 e3 e4
  have hb := (ht.needed A B rfl rfl).1
  rw [g3, g4] at hb
  refine ⟨?_, by simpa using hb⟩
  let A' : Blk ℝ := ⟨[1, 2, 1], fun o => if o.getD 1 0 = 0 then 1 else -1⟩
  let B' : Blk ℝ := ⟨[1, 2, 1], fun o => v [0, o.getD 1 0]⟩
  have ha : ∀ a b, amp (withPair [A, B] 0 A' B') [a, b] 0 0 = (if a = 0 then 1 else -1) * v [0, b] := by
    intro a b
    simp [withPair, amp, A', B']
  have hph : phys (withPair [A, B] 0 A' B') = [2, 2] := rfl
  have hbest := ht.best A' B' 1 ⟨A, B, 1, 2, m, 2, 1, rfl, rfl, g3, g4, rfl, rfl⟩ ht.limit.1 (by
    rw [flip_norm hph, ha, ha, ha, ha]
    simp
    rw [h0, h1] at hn
    linarith)
  unfold vecOverlap at hbest
  rw [sum_two_two, ha, ha, ha, ha] at hbest
  simp [h0, h1] at hbest
  rw [h0, h1] at hn
  have e : v [0, 0] * v [0, 0] + v [0, 1] * v [0, 1] + v [0, 0] * v [0, 0] + v [0, 1] * v [0, 1] = 1 := by linarith
  rw [e] at hbest
  norm_num at hbest
  linarith [ht.lost.1]

theorem flip_above : BoundedAbove flipOp [2, 2] 1 := by
  intro v
  rw [sum_two_two, sum_two_two]
  simp only [sum_two_two, flip_entry]
  simp
  nlinarith [sq_nonneg (v [0, 0] - v [1, 0]), sq_nonneg (v [0, 1] - v [1, 1])]

variable {fac : Blk ℝ → Blk ℝ × Blk ℝ × Blk ℝ}

/-- The updates of the example: from the starting state and from every ground state they find a ground state. -/
theorem flip_cut (hfac : DenseSvd fac) (cutoff : ℝ) (hcut : 0 ≤ cutoff) (minB maxB : Nat) (hmin : 1 ≤ minB ∨ cutoff < 1 ∧ 1 ≤ maxB) (fwd : Bool) {s : List (Blk ℝ)}
    (hF : Fit s flipOp s) (hc : Closed s) (hp : phys s = [2, 2]) (hn : normSq s = 1) (hs : s = flipStart ∨ energy flipOp s = -1) :
    CutAdmissible flipOp 0 s ∧ ∃ s', (cutDmrg flipOp fac cutoff minB maxB).fresh 0 fwd s = .ok (-1, s') ∧ Fit s' flipOp s' ∧ Closed s' ∧
      phys s' = [2, 2] ∧ normSq s' = 1 ∧ energy flipOp s' = -1 ∧ bondAt s' 0 ≤ 2 := by
  have hlen : s.length = 2 := by have := congrArg List.length hp; simpa [phys] using this
  have hreg : Regular flipOp s 0 := flip_regular hF hc hp hn (hs.imp (fun h => by rw [h]; exact flipStart_energy) id)
  have hsz : ∀ A B, s[0]? = some A → s[0 + 1]? = some B → (A.dims.take 2 ++ B.dims.drop 1).prod < 2 ^ 63 := by
    obtain ⟨A, B, rfl⟩ := List.length_eq_two.1 hlen
    intro A' B' g1 g2
    cases g1; cases g2
    obtain ⟨n, i, m, e1⟩ := List.length_eq_three.1 (hF.ket.1 A.dims (by simp))
    obtain ⟨m', j, n', e2⟩ := List.length_eq_three.1 (hF.ket.1 B.dims (by simp))
    have e3 : n = 1 := by have := hc.1; simpa [leftEnd, e1] using this
    have e4 : n' = 1 := by have := hc.2; simpa [rightEnd, e2] using this
    obtain ⟨e5, e6⟩ : i = 2 ∧ j = 2 := by simpa [phys, e1, e2] using hp
    rw [e1, e2, e3, e4, e5, e6]
    norm_num
  refine ⟨⟨hreg, hsz⟩, ?_⟩
  obtain ⟨E, s', v, w, a1, a2, a3, a4, a5, a6, a7, a8, a9, _, b1, b2⟩ := C86_update_partial flipOp s hfac 0 fwd cutoff hcut minB maxB hmin hF hc
    ⟨rfl, rfl⟩ (by rw [hp]; exact flip_herm) (by omega) ⟨fun i A _ h => by omega, fun i A h hi => by
      have := (List.getElem?_eq_some_iff.1 h).1
      omega⟩ hn hreg hsz
  rw [hp] at a4 a7 a8 b2
  have hE : E ≤ -1 := by
    rcases hs with rfl | hs
    · exact flip_trial E b1
    · rw [hs] at a9; exact a9
  have hlo := (vec_bounds (Ws := flipOp) a8.norm).1 _ flip_bound
  rw [← a7] at hlo
  obtain ⟨h0, hb⟩ := flip_lossless hF hc hp (by rw [← a7]; exact hE) a8
  have h1 := b2 _ _ flip_bound flip_above
  rw [h0] at h1
  simp at h1
  have hE1 : E = -1 := le_antisymm hE hlo
  subst hE1
  exact ⟨s', a1, a2, a3, a4, a6, by linarith, hb⟩

/-- So the premise of C87 about the updates of the run is met. -/
theorem flip_cut_run (hfac : DenseSvd fac) (cutoff : ℝ) (hcut : 0 ≤ cutoff) (minB maxB : Nat) (hmin : 1 ≤ minB ∨ cutoff < 1 ∧ 1 ≤ maxB) :
    ∀ (l : List (Nat × Bool)) (s : List (Blk ℝ)), (∀ p ∈ l, p.1 = 0) → Fit s flipOp s → Closed s → phys s = [2, 2] →
      normSq s = 1 → (s = flipStart ∨ energy flipOp s = -1) →
      RunAll (cutDmrg flipOp fac cutoff minB maxB) (CutAdmissible flipOp) l s ∧
      (2 < maxB → RunAll (cutDmrg flipOp fac cutoff minB maxB)
        (fun o s => CutAdmissible flipOp o s ∧ Room (cutDmrg flipOp fac cutoff minB maxB) maxB o s) l s)
  | [], _, _, _, _, _, _, _ => ⟨trivial, fun _ => trivial⟩
  | (o, f) :: l, s, hl, hF, hc, hp, hn, hs => by
    have ho : o = 0 := hl (o, f) (by simp)
    subst ho
    have H := fun fwd => flip_cut hfac cutoff hcut minB maxB hmin fwd hF hc hp hn hs
    obtain ⟨h1, s', h2, h3, h4, h5, h6, h7, h8⟩ := H f
    have ih := flip_cut_run hfac cutoff hcut minB maxB hmin l s' (fun p hp => hl p (by simp [hp])) h3 h4 h5 h6 (.inr h7)
    refine ⟨⟨h1, fun r hr => ?_⟩, fun hm => ⟨⟨h1, fun f' r hr => ?_⟩, fun r hr => ?_⟩⟩
    · rw [h2] at hr; cases hr; exact ih.1
    · obtain ⟨_, s1, g2, _, _, _, _, _, g8⟩ := H f'
      rw [g2] at hr; cases hr
      simp only
      omega
    · rw [h2] at hr; cases hr; exact ih.2 hm

theorem tours_two_zero (n : Nat) : ∀ p ∈ tours 2 0 n, p.1 = 0 := by
  intro p hp
  unfold tours at hp
  rw [List.mem_flatten] at hp
  obtain ⟨l, hl, hpl⟩ := hp
  rw [(List.mem_replicate.1 hl).2] at hpl
  simp [tour] at hpl
  rw [hpl]

/-- The hypotheses of C86 are met. -/
example : ∃ (fac : Blk ℝ → Blk ℝ × Blk ℝ × Blk ℝ) (s' : List (Blk ℝ)), energy flipOp flipStart = 0 ∧
    (cutDmrg flipOp fac (1/10) 1 1).fresh 0 true flipStart = .ok (-1, s') ∧ normSq s' = 1 ∧ energy flipOp s' = -1 := by
  obtain ⟨fac, hfac⟩ := LA.denseSvd_exists ℝ
  have hg := flipStart_good
  obtain ⟨_, s', b1, _, _, _, b5, b6, _⟩ := flip_cut hfac (1/10) (by norm_num) 1 1 (.inl le_rfl) true hg.fit hg.closed rfl hg.norm (.inl rfl)
  exact ⟨fac, s', flipStart_energy, b1, b5, b6⟩

/-- The hypotheses of C87 are met, with any number of sweeps, any cutoff and any limits of the bond. -/
example : ∃ fac : Blk ℝ → Blk ℝ × Blk ℝ × Blk ℝ, ∀ (above : ℝ → ℝ → Bool) (maxIt : Nat), 1 ≤ maxIt → ∀ (cutoff : ℝ), 0 ≤ cutoff → ∀ minB maxB, (1 ≤ minB ∨ cutoff < 1 ∧ 1 ≤ maxB) →
    ∃ e fin oc log, dmrg true (cutDmrg flipOp fac cutoff minB maxB) (.ok (onesLike [1, 1, 1])) above tooSmall (moveOcDense star (svdOf fac)) 100000 maxIt 2
      flipStart 0 = .ok (e, fin, oc, log) ∧ normSq fin = 1 ∧ phys fin = [2, 2] ∧ (2 < maxB → |e - energy flipOp fin| ≤ 2 * cutoff) := by
  obtain ⟨fac, hfac⟩ := LA.denseSvd_exists ℝ
  have hsvd1 := svdOk_dense hfac
  refine ⟨fac, fun above maxIt hmax cutoff hcut minB maxB hmin => ?_⟩
  have hg := flipStart_good
  obtain ⟨hr1, hr2⟩ := flip_cut_run hfac cutoff hcut minB maxB hmin (tours 2 0 maxIt) flipStart (tours_two_zero maxIt) hg.fit hg.closed rfl
    hg.norm (.inl rfl)
  obtain ⟨e, fin, oc', log, c1, c2, c3, _⟩ := C87_run_partial flipOp flipStart hfac hsvd1 cutoff hcut minB maxB hmin hg.fit hg.closed ⟨rfl, rfl⟩
    flip_herm (by simp [flipStart]) (by simp [flipStart]) 0 (by simp [flipStart]) hg.canon hg.norm (.ok (onesLike [1, 1, 1])) above 100000
    maxIt hmax hr1
  refine ⟨e, fin, oc', log, c1, c3, c2, fun hm => ?_⟩
  obtain ⟨e', fin', oc'', log', d1, d2, _⟩ := C87_energy_partial flipOp flipStart hfac hsvd1 cutoff hcut minB maxB hmin hg.fit hg.closed ⟨rfl, rfl⟩
    flip_herm (by simp [flipStart]) (by simp [flipStart]) 0 (by simp [flipStart]) hg.canon hg.norm (.ok (onesLike [1, 1, 1])) above 100000
    maxIt hmax (hr2 hm) (-1) 1 flip_bound flip_above
  rw [c1] at d1
  cases d1
  norm_num at d2
  exact d2

end DM
end QuantiT
