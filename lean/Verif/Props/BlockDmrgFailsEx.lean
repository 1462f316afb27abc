import Verif.Props.BlockDmrgFails
import Verif.Props.BlockDmrgEx
/-
Cases that meet the hypotheses of C81_disjoint_fails and C81_empty_fails: product states under the hopping Hamiltonian.
-/
namespace QuantiT.BN
open Spec BT MP Finset

section
variable {G R : Type} [AddCommGroup G] [DecidableEq G] [Semiring R]

/-- The two-site tensor of a chain of two sites and its product with the Hamiltonian. -/
def pairRun (late : Bool) (A B W1 W2 : BT G R) (fuel : Nat) : Option (Res (BT G R × BT G R)) :=
  andThen (envEdges late fuel [W1, W2] [A, B]) fun e =>
  andThen (tensordot fuel A B [2] [0]) fun ψ =>
  andThen (twoSite fuel W1 W2) fun h =>
  andThen (hamil2site fuel ψ h e.1 e.2) fun ψ' => some (.ok (ψ, ψ'))

theorem mono_onesLike (t : BT G R) : Mono fun n => onesLike n t := fun n m r hnm h => fillLoop_mono _ n m hnm _ _ r h

theorem mono_pairRun (late : Bool) (A B W1 W2 : BT G R) : Mono (pairRun late A B W1 W2) :=
  Mono.andThen (((Mono.const _).andThen fun _ => (mono_onesLike _).andThen fun _ => (mono_onesLike _).andThen fun _ => Mono.const _))
    fun _ => (mono_tensordot _ _ _ _).andThen fun _ => Mono.andThen ((mono_tensordot _ _ _ _).andThen fun _ => Mono.const _)
      fun _ => Mono.andThen ((mono_tensordot _ _ _ _).andThen fun _ => (mono_tensordot _ _ _ _).andThen fun _ => mono_tensordot _ _ _ _)
        fun _ => Mono.const _
end

/-- The keys a run stores, computed once. -/
def runKeys (r : Option (Res (BT Int ℝ × BT Int ℝ))) : List (List Nat) × List (List Nat) :=
  match r with
  | some (.ok p) => (p.1.blocks.map Prod.fst, p.2.blocks.map Prod.fst)
  | _ => ([], [])

theorem pair_keys {late : Bool} {A B W1 W2 ψ ψ' : BT Int ℝ} (h : BlockPair late [W1, W2] [A, B] [A, B] 0 ψ ψ') (n : Nat)
    (hn : (pairRun late A B W1 W2 n).isSome) : runKeys (pairRun late A B W1 W2 n) = (ψ.blocks.map Prod.fst, ψ'.blocks.map Prod.fst) := by
  obtain ⟨A', B', V1, V2, L, Rt, Le, Re, H2, N, gA, gB, gW, gV, hh⟩ := h
  cases gA; cases gB; cases gW; cases gV
  obtain ⟨r, hr⟩ := Option.isSome_iff_exists.1 hn
  have h1 := mono_pairRun late A B W1 W2 n (max n N) r (by omega) hr
  obtain ⟨e1, e2, e3, e4, e5, e6⟩ := hh (max n N) (by omega)
  cases e3
  cases e4
  have h2 : pairRun late A B W1 W2 (max n N) = some (.ok (ψ, ψ')) := by
    unfold pairRun
    rw [e1, e2]
    simp only [andThen]
    rw [e5]
    simp only
    rw [e6]
  rw [hr]
  rw [h1] at h2
  cases h2
  rfl

/-- `|↑↓⟩`. -/
def neelA : BT Int ℝ := ⟨[[(1, 0)], [(1, 1), (1, -1)], [(1, -1)]], 0, [([0, 0, 0], coefR 3 1)]⟩
@[inherit_doc neelA]
def neelB : BT Int ℝ := ⟨[[(1, 1)], [(1, 1), (1, -1)], [(1, 0)]], 0, [([0, 1, 0], coefR 3 1)]⟩
abbrev neelS : List (BT Int ℝ) := [neelA, neelB]

/-- `|↑↑⟩`. -/
def fullA : BT Int ℝ := neelA
@[inherit_doc fullA]
def fullB : BT Int ℝ := ⟨[[(1, 1)], [(1, 1), (1, -1)], [(1, -2)]], 0, [([0, 0, 0], coefR 3 1)]⟩
abbrev fullS : List (BT Int ℝ) := [fullA, fullB]

theorem neel_keys (late : Bool) : runKeys (pairRun late neelA neelB hopW1 hopW2 60) = ([[0, 0, 1, 0]], [[0, 1, 0, 0]]) ∧
    (pairRun late neelA neelB hopW1 hopW2 60).isSome := by cases late <;> decide +kernel
theorem full_keys (late : Bool) : runKeys (pairRun late fullA fullB hopW1 hopW2 60) = ([[0, 0, 0, 0]], []) ∧
    (pairRun late fullA fullB hopW1 hopW2 60).isSome := by cases late <;> decide +kernel

theorem neelA_sound : Sound neelA := sound_of (by unfold Sorted; simp [neelA]) (by
  intro kb h; simp only [neelA, List.mem_cons, List.not_mem_nil, or_false] at h
  subst h; exact ⟨_, rfl, by decide, rfl⟩) (by unfold neelA; simp)
theorem neelB_sound : Sound neelB := sound_of (by unfold Sorted; simp [neelB]) (by
  intro kb h; simp only [neelB, List.mem_cons, List.not_mem_nil, or_false] at h
  subst h; exact ⟨_, rfl, by decide, rfl⟩) (by unfold neelB; simp)
theorem fullB_sound : Sound fullB := sound_of (by unfold Sorted; simp [fullB]) (by
  intro kb h; simp only [fullB, List.mem_cons, List.not_mem_nil, or_false] at h
  subst h; exact ⟨_, rfl, by decide, rfl⟩) (by unfold fullB; simp)

theorem neelChain : Chained 3 neelS := chained_two neelA_sound neelB_sound rfl rfl (.cons ⟨rfl, by decide⟩ .nil)
theorem fullChain : Chained 3 fullS := chained_two neelA_sound fullB_sound rfl rfl (.cons ⟨rfl, by decide⟩ .nil)

theorem neelFit : BlockFit neelS hopWs neelS :=
  ⟨neelChain, hopFit.op, neelChain,
    .cons (.cons ⟨rfl, by decide⟩ (.cons ⟨rfl, by decide⟩ .nil)) (.cons (.cons ⟨rfl, by decide⟩ (.cons ⟨rfl, by decide⟩ .nil)) .nil),
    .cons rfl (.cons rfl .nil)⟩
theorem fullFit : BlockFit fullS hopWs fullS :=
  ⟨fullChain, hopFit.op, fullChain,
    .cons (.cons ⟨rfl, by decide⟩ (.cons ⟨rfl, by decide⟩ .nil)) (.cons (.cons ⟨rfl, by decide⟩ (.cons ⟨rfl, by decide⟩ .nil)) .nil),
    .cons rfl (.cons rfl .nil)⟩

theorem neelStart : StartChain neelS neelS :=
  ⟨by simp, neelChain, by
    intro t ht d hd
    simp only [List.mem_cons, List.not_mem_nil, or_false] at ht
    rcases ht with rfl | rfl
    · simp only [neelA, List.mem_cons, List.not_mem_nil, or_false] at hd
      rcases hd with rfl | rfl | rfl <;> decide
    · simp only [neelB, List.mem_cons, List.not_mem_nil, or_false] at hd
      rcases hd with rfl | rfl | rfl <;> decide, rfl, rfl⟩
theorem fullStart : StartChain fullS fullS :=
  ⟨by simp, fullChain, by
    intro t ht d hd
    simp only [List.mem_cons, List.not_mem_nil, or_false] at ht
    rcases ht with rfl | rfl
    · simp only [fullA, neelA, List.mem_cons, List.not_mem_nil, or_false] at hd
      rcases hd with rfl | rfl | rfl <;> decide
    · simp only [fullB, List.mem_cons, List.not_mem_nil, or_false] at hd
      rcases hd with rfl | rfl | rfl <;> decide, rfl, rfl⟩

theorem neel_amp (a b : Nat) (ha : a < 2) (hb : b < 2) : amp (neelS.map denseOf) [a, b] 0 0 = if a = 0 ∧ b = 1 then 1 else 0 := by
  have e1 : ∀ a, a < 2 → (denseOf neelA).f [0, a, 0] = if a = 0 then 1 else 0 := by
    intro a ha
    interval_cases a <;> rfl
  have e2 : ∀ b, b < 2 → (denseOf neelB).f [0, b, 0] = if b = 1 then 1 else 0 := by
    intro a ha
    interval_cases a <;> rfl
  have d1 : (denseOf neelA).dims = [1, 2, 1] := rfl
  have d2 : (denseOf neelB).dims = [1, 2, 1] := rfl
  simp only [List.map_cons, List.map_nil, amp, d1, d2, List.getD_cons_zero, List.getD_cons_succ, sum_range_succ, sum_range_zero]
  rw [e1 a ha, e2 b hb]
  interval_cases a <;> interval_cases b <;> simp

theorem neel_norm : normSq (neelS.map denseOf) = 1 := by
  rw [DM.flip_norm rfl, neel_amp 0 0 (by omega) (by omega), neel_amp 0 1 (by omega) (by omega), neel_amp 1 0 (by omega) (by omega),
    neel_amp 1 1 (by omega) (by omega)]
  norm_num

/-- The hypotheses of C81_disjoint_fails are met: from `|↑↓⟩` the update returns an energy below that of the state it returns. -/
example : ∃ fac : Blk ℝ → Blk ℝ × Blk ℝ × Blk ℝ, ∀ late fwd, ∃ E s', (bDmrg late hopWs (fun t => svdSplit fac t 2) neelS).fresh 0 fwd neelS = .ok (E, s') ∧
    normSq (s'.map denseOf) = 1 ∧ E < energy (hopWs.map denseOf) (s'.map denseOf) := by
  obtain ⟨fac, h1, h2, h3, h4⟩ := svdReal_exists
  refine ⟨fac, fun late fwd => C81_disjoint_fails late hopWs neelS neelS fac h1 h2 h3 h4 0 fwd neelFit neelStart hopPositive ⟨rfl, rfl⟩ hopClosedW
    (hopLate late) hopNeutral hop_herm (by simp) (pair_canonical_two rfl) neel_norm ?_ ?_ ?_⟩
  · intro ψ ψ' h k v v' hk hk'
    have := pair_keys h 60 (neel_keys late).2
    rw [(neel_keys late).1, Prod.mk.injEq] at this
    have m1 : k ∈ ψ.blocks.map Prod.fst := List.mem_map_of_mem (f := Prod.fst) hk
    have m2 : k ∈ ψ'.blocks.map Prod.fst := List.mem_map_of_mem (f := Prod.fst) hk'
    rw [← this.1, List.mem_singleton] at m1
    rw [← this.2, List.mem_singleton, m1] at m2
    exact absurd m2 (by decide)
  · intro ψ ψ' h
    obtain ⟨d, e, q1, hd, hf⟩ := DM.two_site_entries (fit_dense neelFit) ⟨rfl, rfl⟩ hopClosedW rfl h
    obtain ⟨rfl, rfl⟩ : 2 = d ∧ 2 = e := by
      rw [show phys (neelS.map denseOf) = [2, 2] from rfl] at q1
      simpa using q1
    rw [hd]
    have hcf : configs [1, 2, 2, 1] = {[0, 0, 0, 0], [0, 0, 1, 0], [0, 1, 0, 0], [0, 1, 1, 0]} := by decide
    rw [hcf, sum_insert (by decide), sum_insert (by decide), sum_insert (by decide), sum_singleton]
    rw [(hf 0 0 (by omega) (by omega)).2, (hf 0 1 (by omega) (by omega)).2, (hf 1 0 (by omega) (by omega)).2, (hf 1 1 (by omega) (by omega)).2]
    rw [show phys (neelS.map denseOf) = [2, 2] from rfl]
    have hT := hop_times (fun σ => amp (neelS.map denseOf) σ 0 0)
    rw [hT 0 0 (by omega) (by omega), hT 0 1 (by omega) (by omega), hT 1 0 (by omega) (by omega), hT 1 1 (by omega) (by omega),
      neel_amp 0 1 (by omega) (by omega), neel_amp 1 0 (by omega) (by omega)]
    norm_num
  · intro A hA
    cases hA
    show (List.map List.length (neelA.shape.take 2)).prod < 2 ^ 63
    decide

/-- The hypotheses of C81_empty_fails are met: from `|↑↑⟩`, which the Hamiltonian sends to zero, the update throws. -/
example : ∀ late fwd svd, (bDmrg late hopWs svd fullS).fresh 0 fwd fullS = Res.throw .runtimeError := by
  intro late fwd svd
  refine C81_empty_fails late hopWs fullS fullS svd 0 fwd fullFit fullStart hopPositive ⟨rfl, rfl⟩ hopClosedW (hopLate late) hopNeutral (by simp) ?_
  intro ψ ψ' h
  have := pair_keys h 60 (full_keys late).2
  rw [(full_keys late).1, Prod.mk.injEq] at this
  exact List.map_eq_nil_iff.1 this.2.symm

end QuantiT.BN
