import Verif.Props.BlockDescent
import Verif.Props.BlockNetworkEx
import Verif.Props.DescentEx
/-
Cases that meet the hypotheses of C81 and C82: hopping between two sites with a U(1) charge.
-/
namespace QuantiT.BN
open Spec BT MP Finset

/-- One real coefficient per block. -/
def coefR (n : Nat) (x : ℝ) : Blk ℝ := ⟨List.replicate n 1, fun _ => x⟩

/-- `σ⁺σ⁻ + σ⁻σ⁺`; the bond holds the charge that hops. -/
def hopW1 : BT Int ℝ := ⟨[[(1, 0)], [(1, 1), (1, -1)], [(1, -2), (1, 2)], [(1, -1), (1, 1)]], 0,
  [([0, 0, 0, 1], coefR 4 1), ([0, 1, 1, 0], coefR 4 1)]⟩
@[inherit_doc hopW1]
def hopW2 : BT Int ℝ := ⟨[[(1, 2), (1, -2)], [(1, 1), (1, -1)], [(1, 0)], [(1, -1), (1, 1)]], 0,
  [([0, 1, 0, 0], coefR 4 1), ([1, 0, 0, 1], coefR 4 1)]⟩

/-- `3/5 |↑↓⟩ + 4/5 |↓↑⟩`. -/
noncomputable def hopA : BT Int ℝ := ⟨[[(1, 0)], [(1, 1), (1, -1)], [(1, -1), (1, 1)]], 0, [([0, 0, 0], coefR 3 (3 / 5)), ([0, 1, 1], coefR 3 (4 / 5))]⟩
@[inherit_doc hopA]
def hopB : BT Int ℝ := ⟨[[(1, 1), (1, -1)], [(1, 1), (1, -1)], [(1, 0)]], 0, [([0, 1, 0], coefR 3 1), ([1, 0, 0], coefR 3 1)]⟩

abbrev hopWs : List (BT Int ℝ) := [hopW1, hopW2]
noncomputable abbrev hopS : List (BT Int ℝ) := [hopA, hopB]

theorem hopW1_sound : Sound hopW1 := sound_of (by unfold Sorted; simp [hopW1]; decide) (by
  intro kb h; simp only [hopW1, List.mem_cons, List.not_mem_nil, or_false] at h
  rcases h with rfl | rfl <;> exact ⟨_, rfl, by decide, rfl⟩) (by unfold hopW1; simp)
theorem hopW2_sound : Sound hopW2 := sound_of (by unfold Sorted; simp [hopW2]; decide) (by
  intro kb h; simp only [hopW2, List.mem_cons, List.not_mem_nil, or_false] at h
  rcases h with rfl | rfl <;> exact ⟨_, rfl, by decide, rfl⟩) (by unfold hopW2; simp)
theorem hopA_sound : Sound hopA := sound_of (by unfold Sorted; simp [hopA]; decide) (by
  intro kb h; simp only [hopA, List.mem_cons, List.not_mem_nil, or_false] at h
  rcases h with rfl | rfl <;> exact ⟨_, rfl, by decide, rfl⟩) (by unfold hopA; simp)
theorem hopB_sound : Sound hopB := sound_of (by unfold Sorted; simp [hopB]; decide) (by
  intro kb h; simp only [hopB, List.mem_cons, List.not_mem_nil, or_false] at h
  rcases h with rfl | rfl <;> exact ⟨_, rfl, by decide, rfl⟩) (by unfold hopB; simp)

theorem hopChain : Chained 3 hopS := chained_two hopA_sound hopB_sound rfl rfl
  (.cons ⟨rfl, by decide⟩ (.cons ⟨rfl, by decide⟩ .nil))

theorem hopFit : BlockFit hopS hopWs hopS :=
  ⟨hopChain, chained_two hopW1_sound hopW2_sound rfl rfl (.cons ⟨rfl, by decide⟩ (.cons ⟨rfl, by decide⟩ .nil)), hopChain,
    .cons (.cons ⟨rfl, by decide⟩ (.cons ⟨rfl, by decide⟩ .nil)) (.cons (.cons ⟨rfl, by decide⟩ (.cons ⟨rfl, by decide⟩ .nil)) .nil),
    .cons rfl (.cons rfl .nil)⟩

theorem hopPositive : AllPositive hopWs := by
  intro t ht d hd
  simp only [List.mem_cons, List.not_mem_nil, or_false] at ht
  rcases ht with rfl | rfl
  · simp only [hopW1, List.mem_cons, List.not_mem_nil, or_false] at hd
    rcases hd with rfl | rfl | rfl | rfl <;> decide
  · simp only [hopW2, List.mem_cons, List.not_mem_nil, or_false] at hd
    rcases hd with rfl | rfl | rfl | rfl <;> decide

theorem hopClosed : Closed (hopS.map denseOf) := ⟨rfl, rfl⟩
theorem hopClosedW : Closed (hopWs.map denseOf) := ⟨rfl, rfl⟩
theorem hopNeutral : Neutral hopWs := by unfold Neutral; decide
theorem hopLate (late : Bool) : late = false ∨ chargeAt (leftDim hopWs) 0 = 0 ∧ chargeAt (rightDim hopWs) 0 = 0 := .inr (by decide)

theorem hop_entry (a b c d : Nat) (ha : a < 2) (hb : b < 2) (hc : c < 2) (hd : d < 2) :
    opEntry (hopWs.map denseOf) [a, b] [c, d] 0 0 = if a ≠ b ∧ c = b ∧ d = a then 1 else 0 := by
  have e1 : ∀ x w y, x < 2 → w < 2 → y < 2 → (denseOf hopW1).f [0, x, w, y] = if x = w ∧ y + w = 1 then 1 else 0 := by
    intro x w y hx hw hy
    interval_cases x <;> interval_cases w <;> interval_cases y <;> rfl
  have e2 : ∀ x w y, x < 2 → w < 2 → y < 2 → (denseOf hopW2).f [w, x, 0, y] = if y = w ∧ x + w = 1 then 1 else 0 := by
    intro x w y hx hw hy
    interval_cases x <;> interval_cases w <;> interval_cases y <;> rfl
  have d1 : (denseOf hopW1).dims[2]?.getD 0 = 2 := rfl
  have d2 : (denseOf hopW2).dims[2]?.getD 0 = 1 := rfl
  simp only [opEntry, mpoEntry, List.map_cons, List.map_nil, List.getD_eq_getElem?_getD, d1, d2, sum_range_succ, sum_range_zero,
    List.getElem?_cons_zero, List.getElem?_cons_succ, Option.getD_some, Nat.zero_add]
  rw [e1 a 0 c ha (by omega) hc, e1 a 1 c ha (by omega) hc, e2 b 0 d hb (by omega) hd, e2 b 1 d hb (by omega) hd]
  interval_cases a <;> interval_cases b <;> interval_cases c <;> interval_cases d <;> simp

/-- The entries of the operator, one by one. -/
theorem hop_sum (v w : List Nat → ℝ) : ∑ σ ∈ configs [2, 2], ∑ τ ∈ configs [2, 2], v σ * opEntry (hopWs.map denseOf) τ σ 0 0 * w τ
    = v [0, 1] * w [1, 0] + v [1, 0] * w [0, 1] := by
  simp only [DM.sum_two_two]
  simp only [hop_entry _ _ _ _ (show 0 < 2 by omega) (show 0 < 2 by omega) (show 0 < 2 by omega) (show 0 < 2 by omega),
    hop_entry 0 0 0 1 (by omega) (by omega) (by omega) (by omega), hop_entry 0 0 1 0 (by omega) (by omega) (by omega) (by omega),
    hop_entry 0 0 1 1 (by omega) (by omega) (by omega) (by omega), hop_entry 0 1 0 0 (by omega) (by omega) (by omega) (by omega),
    hop_entry 0 1 0 1 (by omega) (by omega) (by omega) (by omega), hop_entry 0 1 1 0 (by omega) (by omega) (by omega) (by omega),
    hop_entry 0 1 1 1 (by omega) (by omega) (by omega) (by omega), hop_entry 1 0 0 0 (by omega) (by omega) (by omega) (by omega),
    hop_entry 1 0 0 1 (by omega) (by omega) (by omega) (by omega), hop_entry 1 0 1 0 (by omega) (by omega) (by omega) (by omega),
    hop_entry 1 0 1 1 (by omega) (by omega) (by omega) (by omega), hop_entry 1 1 0 0 (by omega) (by omega) (by omega) (by omega),
    hop_entry 1 1 0 1 (by omega) (by omega) (by omega) (by omega), hop_entry 1 1 1 0 (by omega) (by omega) (by omega) (by omega),
    hop_entry 1 1 1 1 (by omega) (by omega) (by omega) (by omega)]
  simp

theorem hop_times (v : List Nat → ℝ) (a b : Nat) (ha : a < 2) (hb : b < 2) :
    ∑ σ ∈ configs [2, 2], v σ * opEntry (hopWs.map denseOf) [a, b] σ 0 0 = if a = b then 0 else v [b, a] := by
  rw [DM.sum_two_two, hop_entry a b 0 0 ha hb (by omega) (by omega), hop_entry a b 0 1 ha hb (by omega) (by omega),
    hop_entry a b 1 0 ha hb (by omega) (by omega), hop_entry a b 1 1 ha hb (by omega) (by omega)]
  interval_cases a <;> interval_cases b <;> simp

theorem hop_energy {s : List (Blk ℝ)} (h : phys s = [2, 2]) :
    energy (hopWs.map denseOf) s = 2 * (amp s [0, 1] 0 0 * amp s [1, 0] 0 0) := by
  unfold energy sandwich
  rw [h]
  simp only [star_trivial]
  rw [hop_sum (fun σ => amp s σ 0 0) (fun σ => amp s σ 0 0)]
  simp
  ring

theorem hop_herm : HermitianOp (hopWs.map denseOf) [2, 2] := by
  intro σ hσ τ hτ
  rw [mem_configs] at hσ hτ
  obtain ⟨a, b, rfl⟩ : ∃ x y, σ = [x, y] := List.length_eq_two.1 (by simpa using hσ.length_eq)
  obtain ⟨c, d, rfl⟩ : ∃ x y, τ = [x, y] := List.length_eq_two.1 (by simpa using hτ.length_eq)
  unfold InRange at hσ hτ
  simp at hσ hτ
  rw [hop_entry a b c d (by omega) (by omega) (by omega) (by omega), hop_entry c d a b (by omega) (by omega) (by omega) (by omega), star_trivial]
  obtain ⟨h1, h2⟩ := hσ
  obtain ⟨h3, h4⟩ := hτ
  interval_cases a <;> interval_cases b <;> interval_cases c <;> interval_cases d <;> simp

theorem hop_bound : BoundedBelow (hopWs.map denseOf) [2, 2] (-1) := by
  intro v
  simp only [star_trivial]
  rw [hop_sum v v, DM.sum_two_two]
  simp
  nlinarith [sq_nonneg (v [0, 1] + v [1, 0]), sq_nonneg (v [0, 0]), sq_nonneg (v [1, 1])]

/-- A normalised chain with the outer dimensions of the example, in the sector of one particle, with both amplitudes nonzero. -/
structure HopGood (s : List (BT Int ℝ)) : Prop where
  fit : BlockFit s hopWs s
  outer : SameOuter hopS s
  closed : Closed (s.map denseOf)
  norm : normSq (s.map denseOf) = 1
  up : amp (s.map denseOf) [0, 0] 0 0 = 0
  down : amp (s.map denseOf) [1, 1] 0 0 = 0
  left : amp (s.map denseOf) [0, 1] 0 0 ≠ 0
  right : amp (s.map denseOf) [1, 0] 0 0 ≠ 0

theorem HopGood.phys {s : List (BT Int ℝ)} (h : HopGood s) : phys (s.map denseOf) = [2, 2] :=
  (SameOuter.phys_dense h.outer).trans rfl

theorem HopGood.len {s : List (BT Int ℝ)} (h : HopGood s) : s.length = 2 := (SameOuter.length_eq h.outer).trans rfl

theorem HopGood.square {s : List (BT Int ℝ)} (h : HopGood s) :
    amp (s.map denseOf) [0, 1] 0 0 ^ 2 + amp (s.map denseOf) [1, 0] 0 0 ^ 2 = 1 := by
  have := DM.flip_norm h.phys
  rw [h.norm, h.up, h.down] at this
  linarith

theorem HopGood.start {s : List (BT Int ℝ)} (h : HopGood s) : StartChain hopS s :=
  ⟨by simp, hopChain, by
    intro t ht d hd
    simp only [List.mem_cons, List.not_mem_nil, or_false] at ht
    rcases ht with rfl | rfl
    · simp only [hopA, List.mem_cons, List.not_mem_nil, or_false] at hd
      rcases hd with rfl | rfl | rfl <;> decide
    · simp only [hopB, List.mem_cons, List.not_mem_nil, or_false] at hd
      rcases hd with rfl | rfl | rfl <;> decide, h.outer.left.symm, h.outer.right.symm⟩

/-- The residual is `1 - e²`. -/
theorem hop_residual {s : List (BT Int ℝ)} (hs : HopGood s) {ψ ψ' : Blk ℝ} (h : DM.PairTensors (hopWs.map denseOf) (s.map denseOf) 0 ψ ψ') :
    ψ.dims = [1, 2, 2, 1] ∧ ∑ o ∈ configs ψ.dims, ‖ψ'.f o - (energy (hopWs.map denseOf) (s.map denseOf) : ℝ) * ψ.f o‖ ^ 2
      = 1 - energy (hopWs.map denseOf) (s.map denseOf) ^ 2 := by
  obtain ⟨d, e, h1, hψd, hf⟩ := DM.two_site_entries (fit_dense hs.fit) hs.closed hopClosedW (by simpa using hs.len) h
  rw [hs.phys] at h1
  obtain ⟨rfl, rfl⟩ : 2 = d ∧ 2 = e := by simpa using h1
  refine ⟨hψd, ?_⟩
  rw [hψd]
  have hcf : configs [1, 2, 2, 1] = {[0, 0, 0, 0], [0, 0, 1, 0], [0, 1, 0, 0], [0, 1, 1, 0]} := by decide
  rw [hcf, sum_insert (by decide), sum_insert (by decide), sum_insert (by decide), sum_singleton]
  rw [(hf 0 0 (by omega) (by omega)).1, (hf 0 0 (by omega) (by omega)).2, (hf 0 1 (by omega) (by omega)).1,
    (hf 0 1 (by omega) (by omega)).2, (hf 1 0 (by omega) (by omega)).1, (hf 1 0 (by omega) (by omega)).2,
    (hf 1 1 (by omega) (by omega)).1, (hf 1 1 (by omega) (by omega)).2]
  rw [hs.phys]
  have hT := hop_times (fun σ => amp (s.map denseOf) σ 0 0)
  rw [hT 0 0 (by omega) (by omega), hT 0 1 (by omega) (by omega), hT 1 0 (by omega) (by omega), hT 1 1 (by omega) (by omega), hs.up, hs.down]
  have he := hop_energy hs.phys
  have hn' := hs.square
  generalize energy (hopWs.map denseOf) (s.map denseOf) = E at *
  simp
  generalize amp (s.map denseOf) [0, 1] 0 0 = q at *
  generalize amp (s.map denseOf) [1, 0] 0 0 = r at *
  linear_combination (1 + E ^ 2) * hn' + 2 * E * he

theorem hop_regular {s : List (BT Int ℝ)} (hs : HopGood s) (he : energy (hopWs.map denseOf) (s.map denseOf) = 24 / 25 ∨
    energy (hopWs.map denseOf) (s.map denseOf) = -1) : DM.Regular (hopWs.map denseOf) (s.map denseOf) 0 := by
  intro ψ ψ' h
  obtain ⟨hd, hr⟩ := hop_residual hs h
  rcases he with he | he
  · left
    unfold DM.Improvable
    rw [he] at hr ⊢
    refine le_of_le_of_eq ?_ hr.symm
    norm_num
  · right
    rw [he] at hr ⊢
    refine ⟨by norm_num, fun o ho => ?_⟩
    rw [show (1 : ℝ) - (-1) ^ 2 = 0 by norm_num, sum_eq_zero_iff_of_nonneg (fun _ _ => by positivity)] at hr
    have := hr o ho
    have h0 : ψ'.f o - (-1 : ℝ) * ψ.f o = 0 := by simpa using this
    simp at h0 ⊢
    linarith

theorem hop_keys {t : BT Int ℝ} (h : Sound t) (hs : t.shape = [[(1, 0)], [(1, 1), (1, -1)], [(1, 1), (1, -1)], [(1, 0)]]) (hr : t.rule = 0)
    {k : List Nat} {v : Blk ℝ} (hk : (k, v) ∈ t.blocks) : k = [0, 0, 1, 0] ∨ k = [0, 1, 0, 0] := by
  obtain ⟨secs, h1, h2, _⟩ := h.1.block k v hk
  rw [hs] at h1
  rw [hr] at h2
  have key : ∀ (k : List Nat) (secs : List (Nat × Int)), sections [[(1, 0)], [(1, 1), (1, -1)], [(1, 1), (1, -1)], [(1, 0)]] k = some secs →
      charge secs = 0 → k = [0, 0, 1, 0] ∨ k = [0, 1, 0, 0] := by
    intro k secs h1 h2
    match k, h1 with
    | [a, b, c, d], h1 =>
      match a, b, c, d, h1 with
      | 0, 0, 0, 0, h1 => cases h1; exact absurd h2 (by decide)
      | 0, 0, 1, 0, h1 => exact .inl rfl
      | 0, 1, 0, 0, h1 => exact .inr rfl
      | 0, 1, 1, 0, h1 => cases h1; exact absurd h2 (by decide)
      | a + 1, b, c, d, h1 => simp [sections] at h1
      | 0, b + 2, c, d, h1 => simp [sections] at h1
      | 0, 0, c + 2, d, h1 => simp [sections] at h1
      | 0, 1, c + 2, d, h1 => simp [sections] at h1
      | 0, 0, 0, d + 1, h1 => simp [sections] at h1
      | 0, 0, 1, d + 1, h1 => simp [sections] at h1
      | 0, 1, 0, d + 1, h1 => simp [sections] at h1
      | 0, 1, 1, d + 1, h1 => simp [sections] at h1
    | [], h1 => simp [sections] at h1
    | [_], h1 => simp [sections] at h1
    | [_, _], h1 => simp [sections] at h1
    | [_, _, _], h1 => simp [sections] at h1
    | _ :: _ :: _ :: _ :: _ :: _, h1 => simp [sections] at h1
  exact key k secs h1 h2

theorem stored_of_entry {t : BT Int ℝ} {e k c : List Nat} (hl : locateAll t.shape e = some (k, c)) (h : entry t.shape t.blocks e ≠ 0) :
    ∃ v, (k, v) ∈ t.blocks := by
  unfold entry at h
  rw [hl] at h
  cases hv : lookup t.blocks k with
  | none => simp [hv] at h
  | some v => exact ⟨v, mem_of_lookup hv⟩

/-- The two-site tensor stores both blocks its rule allows, and its product with the Hamiltonian at least one. -/
theorem hop_shared {s : List (BT Int ℝ)} (hs : HopGood s) (late : Bool) (ψ ψ' : BT Int ℝ) (h : BlockPair late hopWs hopS s 0 ψ ψ') :
    Shared ψ ψ' := by
  obtain ⟨x, x', p1, p2, p3, p4, p5, A, B, gA, gB, p6, p7⟩ := BlockPair.rep hs.fit hs.start hopPositive hs.closed hopClosedW (hopLate late)
    hopNeutral (by rw [hs.len]; omega) h
  obtain ⟨d, e, h1, hψd, hf⟩ := DM.two_site_entries (fit_dense hs.fit) hs.closed hopClosedW (by simpa using hs.len) p1
  rw [hs.phys] at h1
  obtain ⟨rfl, rfl⟩ : 2 = d ∧ 2 = e := by simpa using h1
  have f1 := hf 0 1 (by omega) (by omega)
  have f2 := hf 1 0 (by omega) (by omega)
  rw [hs.phys] at f1 f2
  have hT := hop_times (fun σ => amp (s.map denseOf) σ 0 0)
  rw [hT 0 1 (by omega) (by omega)] at f1
  rw [hT 1 0 (by omega) (by omega)] at f2
  have hL := hs.left
  have hR := hs.right
  have q1 := hs.outer.phys
  have q2 := hs.outer.left
  have q3 := hs.outer.right
  have q4 := hs.outer.rule
  obtain ⟨A', B', rfl⟩ := List.length_eq_two.1 hs.len
  cases gA; cases gB
  simp only [List.map_cons, List.map_nil, List.cons.injEq, and_true] at q1
  have hsh : ψ.shape = [[(1, 0)], [(1, 1), (1, -1)], [(1, 1), (1, -1)], [(1, 0)]] := by
    rw [p7, q1.1, q1.2, show A.shape.getD 0 [] = _ from q2, show B.shape.getD 2 [] = _ from q3]
    rfl
  have hru : ψ.rule = 0 := by
    rw [p6]
    simpa [hopA, hopB] using q4
  have hin : ∀ a b, a < 2 → b < 2 → InRange [0, a, b, 0] (ψ.shape.map dimSize) := by
    intro a b ha hb
    rw [hsh]
    unfold InRange
    simp only [List.map_cons, List.map_nil]
    exact .cons (by decide) (.cons ha (.cons hb (.cons (by decide) .nil)))
  have l1 : locateAll ψ.shape [0, 0, 1, 0] = some ([0, 0, 1, 0], [0, 0, 0, 0]) := by rw [hsh]; rfl
  have l2 : locateAll ψ.shape [0, 1, 0, 0] = some ([0, 1, 0, 0], [0, 0, 0, 0]) := by rw [hsh]; rfl
  obtain ⟨v1, m1⟩ := stored_of_entry l1 (by rw [← p2.f (hin 0 1 (by omega) (by omega)), f1.1]; exact hL)
  obtain ⟨v2, m2⟩ := stored_of_entry l2 (by rw [← p2.f (hin 1 0 (by omega) (by omega)), f2.1]; exact hR)
  obtain ⟨v3, m3⟩ := stored_of_entry (t := ψ') (by rw [p4]; exact l1) (by
    rw [← p3.f (by rw [p4]; exact hin 0 1 (by omega) (by omega)), f1.2]
    simpa using hR)
  refine ⟨⟨_, v1, v3, m1, m3⟩, fun y hy => ?_⟩
  obtain ⟨k, v⟩ := y
  rcases hop_keys p3.1 (p4.trans hsh) (p5.trans hru) hy with rfl | rfl
  · exact ⟨_, m1, le_refl _⟩
  · exact ⟨_, m2, le_refl _⟩

theorem hop_admissible {s : List (BT Int ℝ)} (hs : HopGood s) (late : Bool) (he : energy (hopWs.map denseOf) (s.map denseOf) = 24 / 25 ∨
    energy (hopWs.map denseOf) (s.map denseOf) = -1) : Admissible late hopWs hopS 0 s := by
  refine ⟨hop_regular hs he, fun ψ ψ' h => hop_shared hs late ψ ψ' h, fun A hA => ?_⟩
  have hF := hs.fit.ket
  have q1 := hs.outer.phys
  have q2 := hs.outer.left
  obtain ⟨A', B', rfl⟩ := List.length_eq_two.1 hs.len
  cases hA
  obtain ⟨l, c, r, hA⟩ : ∃ l c r, A.shape = [l, c, r] := List.length_eq_three.1 (hF.1 _ (by simp)).2
  simp only [List.map_cons, List.map_nil, List.cons.injEq, and_true] at q1
  have q1 := q1.1
  have q2 : A.shape.getD 0 [] = _ := q2
  rw [hA] at q1 q2 ⊢
  simp at q1 q2
  subst q1 q2
  show (List.map List.length [leftDim hopS, hopA.shape[1]?.getD []]).prod < 2 ^ 63
  decide

theorem hopStart_amp (a b : Nat) (ha : a < 2) (hb : b < 2) :
    amp (hopS.map denseOf) [a, b] 0 0 = if a + b = 1 then (if a = 0 then 3 / 5 else 4 / 5) else 0 := by
  have e1 : ∀ a, a < 2 → ∀ k, k < 2 → (denseOf hopA).f [0, a, k] = if a = k then (if a = 0 then 3 / 5 else 4 / 5) else 0 := by
    intro a ha k hk
    interval_cases a <;> interval_cases k <;> rfl
  have e2 : ∀ b, b < 2 → ∀ k, k < 2 → (denseOf hopB).f [k, b, 0] = if b + k = 1 then 1 else 0 := by
    intro a ha k hk
    interval_cases a <;> interval_cases k <;> rfl
  have d1 : (denseOf hopA).dims = [1, 2, 2] := rfl
  have d2 : (denseOf hopB).dims = [2, 2, 1] := rfl
  simp only [List.map_cons, List.map_nil, amp, d1, d2, List.getD_cons_zero, List.getD_cons_succ, sum_range_succ, sum_range_zero]
  rw [e1 a ha 0 (by omega), e1 a ha 1 (by omega), e2 b hb 0 (by omega), e2 b hb 1 (by omega)]
  interval_cases a <;> interval_cases b <;> simp

theorem hopStart : HopGood hopS := by
  have ha := hopStart_amp
  refine ⟨hopFit, SameOuter.refl _, hopClosed, ?_, ?_, ?_, ?_, ?_⟩
  · rw [DM.flip_norm rfl, ha 0 0 (by omega) (by omega), ha 0 1 (by omega) (by omega), ha 1 0 (by omega) (by omega), ha 1 1 (by omega) (by omega)]
    norm_num
  · rw [ha 0 0 (by omega) (by omega)]; norm_num
  · rw [ha 1 1 (by omega) (by omega)]; norm_num
  · rw [ha 0 1 (by omega) (by omega)]; norm_num
  · rw [ha 1 0 (by omega) (by omega)]; norm_num

theorem hopStart_energy : energy (hopWs.map denseOf) (hopS.map denseOf) = 24 / 25 := by
  rw [hop_energy rfl, hopStart_amp 0 1 (by omega) (by omega), hopStart_amp 1 0 (by omega) (by omega)]
  norm_num

theorem pair_canonical_two {s : List (Blk ℝ)} (h : s.length = 2) : PairCanonical s 0 :=
  ⟨fun i A _ h => by omega, fun i A hA hi => by
    have := (List.getElem?_eq_some_iff.1 hA).1
    omega⟩

/-- A chain with the outer dimensions of the example, of norm one and in the ground state. -/
theorem hop_ground {s : List (BT Int ℝ)} (hF : BlockFit s hopWs s) (ho : SameOuter hopS s) (hc : Closed (s.map denseOf))
    (hn : normSq (s.map denseOf) = 1) (he : energy (hopWs.map denseOf) (s.map denseOf) = -1) : HopGood s := by
  have hp : phys (s.map denseOf) = [2, 2] := (SameOuter.phys_dense ho).trans rfl
  have h1 := DM.flip_norm hp
  have h2 := hop_energy hp
  rw [hn] at h1
  rw [he] at h2
  refine ⟨hF, ho, hc, hn, ?_, ?_, ?_, ?_⟩ <;>
  generalize amp (s.map denseOf) [0, 0] 0 0 = p at * <;>
  generalize amp (s.map denseOf) [0, 1] 0 0 = q at * <;>
  generalize amp (s.map denseOf) [1, 0] 0 0 = r at * <;>
  generalize amp (s.map denseOf) [1, 1] 0 0 = t at *
  · exact pow_eq_zero_iff (two_ne_zero) |>.1 (by nlinarith [sq_nonneg (q + r), sq_nonneg p, sq_nonneg t])
  · exact pow_eq_zero_iff (two_ne_zero) |>.1 (by nlinarith [sq_nonneg (q + r), sq_nonneg p, sq_nonneg t])
  · rintro rfl; norm_num at h2
  · rintro rfl; norm_num at h2

theorem svdReal_exists : ∃ fac : Blk ℝ → Blk ℝ × Blk ℝ × Blk ℝ, SvdSizes fac ∧ SvdProduct fac ∧ SvdOrtho fac ∧ SvdReal fac := by
  obtain ⟨fac, h1, h2, h3, _⟩ := dense_svd_exists ℝ
  exact ⟨fac, h1, h2, h3, fun m ld nr nc _ e k _ _ => star_trivial _⟩

/-- A combination of the starting state and its product with the Hamiltonian is the ground state. -/
theorem hop_trial (late : Bool) {E : ℝ} (a10 : ∀ ψ ψ', DM.PairTensors (hopWs.map denseOf) (hopS.map denseOf) 0 ψ ψ' → ∀ (x y : ℝ) (θ : Blk ℝ), θ.dims = ψ.dims →
    (∀ o ∈ configs ψ.dims, θ.f o = x * ψ.f o + y * ψ'.f o) →
    E * ∑ σ ∈ configs (phys (hopS.map denseOf)), ‖pairAmp ((hopS.map denseOf).take 0) θ ((hopS.map denseOf).drop (0 + 2)) σ 0 0‖ ^ 2
      ≤ RCLike.re (pairSandwich ((hopS.map denseOf).take 0) θ θ ((hopS.map denseOf).drop (0 + 2)) (hopWs.map denseOf) (phys (hopS.map denseOf)) 0 0 0 0 0 0)) :
    E ≤ -1 := by
  have hg := hopStart
  -- the trial state
  obtain ⟨A, B, W1, W2, L, Rt, Le, Re, H2, q, le, re, h2, x, l, c, k, k', c', r, N, S⟩ :=
    update_setup late hopWs hopS hopS (fun _ => Res.ub) 0 hg.fit hg.start hopPositive hg.closed hopClosedW (hopLate late) hopNeutral (by simp)
  obtain ⟨N2, t, z, m1, m2, m3, m4, m5⟩ := S.fit.times
  have hpt : DM.PairTensors (hopWs.map denseOf) (hopS.map denseOf) 0 x z :=
    ⟨denseOf A, denseOf B, denseOf W1, denseOf W2, le, re, h2, by rw [List.getElem?_map, S.gA]; rfl, by rw [List.getElem?_map, S.gB]; rfl,
      by rw [List.getElem?_map, S.gW1]; rfl, by rw [List.getElem?_map, S.gW2]; rfl, S.dq, S.dl, S.dr, S.dh, m2⟩
  obtain ⟨d, e, q1, hd, hf⟩ := DM.two_site_entries (fit_dense hg.fit) hg.closed hopClosedW rfl hpt
  obtain ⟨rfl, rfl⟩ : 2 = d ∧ 2 = e := by
    rw [show phys (hopS.map denseOf) = [2, 2] from rfl] at q1
    simpa using q1
  have hup := a10 x z hpt (-5) 5 ⟨x.dims, fun o => 5 * z.f o - 5 * x.f o⟩ rfl (fun o _ => by show _ - _ = _; ring)
  rw [show phys (hopS.map denseOf) = [2, 2] from rfl] at hup
  have hpa : ∀ a b, a < 2 → b < 2 → pairAmp ((hopS.map denseOf).take 0) ⟨x.dims, fun o => 5 * z.f o - 5 * x.f o⟩ ((hopS.map denseOf).drop (0 + 2)) [a, b] 0 0
      = if a + b = 1 then (if a = 0 then 1 else -1) else 0 := by
    intro a b ha hb
    have h1 := hf a b ha hb
    have : pairAmp ((hopS.map denseOf).take 0) ⟨x.dims, fun o => 5 * z.f o - 5 * x.f o⟩ ((hopS.map denseOf).drop (0 + 2)) [a, b] 0 0
        = 5 * z.f [0, a, b, 0] - 5 * x.f [0, a, b, 0] := by
      simp [pairAmp, hd, amp]
    rw [this, h1.1, h1.2, show phys (hopS.map denseOf) = [2, 2] from rfl, hop_times (fun σ => amp (hopS.map denseOf) σ 0 0) a b ha hb,
      hopStart_amp a b ha hb, hopStart_amp b a hb ha]
    interval_cases a <;> interval_cases b <;> norm_num
  unfold pairSandwich at hup
  simp only [star_trivial] at hup
  rw [hop_sum (fun σ => pairAmp ((hopS.map denseOf).take 0) ⟨x.dims, fun o => 5 * z.f o - 5 * x.f o⟩ ((hopS.map denseOf).drop (0 + 2)) σ 0 0)
    (fun σ => pairAmp ((hopS.map denseOf).take 0) ⟨x.dims, fun o => 5 * z.f o - 5 * x.f o⟩ ((hopS.map denseOf).drop (0 + 2)) σ 0 0),
    DM.sum_two_two, hpa 0 0 (by omega) (by omega), hpa 0 1 (by omega) (by omega), hpa 1 0 (by omega) (by omega),
    hpa 1 1 (by omega) (by omega)] at hup
  norm_num at hup
  linarith

/-- The first update finds the ground state. -/
theorem hop_first (late : Bool) (fac : Blk ℝ → Blk ℝ × Blk ℝ × Blk ℝ) (hfac : SvdSizes fac) (hprod : SvdProduct fac) (horth : SvdOrtho fac)
    (hreal : SvdReal fac) (fwd : Bool) : ∃ s', (bDmrg late hopWs (fun t => svdSplit fac t 2) hopS).fresh 0 fwd hopS = .ok (-1, s') ∧
      HopGood s' ∧ energy (hopWs.map denseOf) (s'.map denseOf) = -1 := by
  have hg := hopStart
  have hA := hop_admissible hg late (.inl hopStart_energy)
  obtain ⟨E, s', a1, a2, a3, a4, a5, a6, a7, a8, a9, a10⟩ := C81_update_partial late hopWs hopS hopS fac hfac hprod horth hreal 0 fwd hg.fit
    hg.start hopPositive hg.closed hopClosedW (hopLate late) hopNeutral hop_herm (by simp) (pair_canonical_two rfl) hg.norm hA.regular hA.shared hA.small
  have hlo : -1 ≤ E := by rw [a7]; exact DM.C73_bound _ _ (-1) (by rw [SameOuter.phys_dense a3]; exact hop_bound) a6
  have hup := hop_trial late a10
  have hE1 : E = -1 := by linarith
  subst hE1
  exact ⟨s', a1, hop_ground a2 a3 a4 a6 a7.symm, a7.symm⟩

/-- From the ground state on, C81 speaks of every update. -/
theorem hop_run (late : Bool) (fac : Blk ℝ → Blk ℝ × Blk ℝ × Blk ℝ) (hfac : SvdSizes fac) (hprod : SvdProduct fac) (horth : SvdOrtho fac)
    (hreal : SvdReal fac) : ∀ (l : List (Nat × Bool)) (s : List (BT Int ℝ)), (∀ p ∈ l, p.1 = 0) → HopGood s →
      energy (hopWs.map denseOf) (s.map denseOf) = -1 →
      DM.RunAll (bDmrg late hopWs (fun t => svdSplit fac t 2) hopS) (Admissible late hopWs hopS) l s
  | [], _, _, _, _ => trivial
  | (o, f) :: l, s, hl, hg, he => by
    have ho : o = 0 := hl (o, f) (by simp)
    subst ho
    have hA := hop_admissible hg late (.inr he)
    refine ⟨hA, fun r hr => ?_⟩
    obtain ⟨E, s', a1, a2, a3, a4, a5, a6, a7, a8, _⟩ := C81_update_partial late hopWs hopS s fac hfac hprod horth hreal 0 f hg.fit
      hg.start hopPositive hg.closed hopClosedW (hopLate late) hopNeutral (by rw [hg.phys]; exact hop_herm) (by rw [hg.len]; omega)
      (pair_canonical_two (by simpa using hg.len)) hg.norm hA.regular hA.shared hA.small
    rw [a1] at hr
    cases hr
    have hlo := DM.C73_bound (hopWs.map denseOf) (s'.map denseOf) (-1) (by rw [SameOuter.phys_dense a3, hg.phys]; exact hop_bound) a6
    have h1 : energy (hopWs.map denseOf) (s'.map denseOf) = -1 := by linarith
    exact hop_run late fac hfac hprod horth hreal l s' (fun p hp => hl p (by simp [hp]))
      (hop_ground a2 (SameOuter.trans hg.outer a3) a4 a6 h1) h1

/-- The hypotheses of C81 are met, by an update that finds the ground state. -/
example : ∃ fac : Blk ℝ → Blk ℝ × Blk ℝ × Blk ℝ, ∃ s', energy (hopWs.map denseOf) (hopS.map denseOf) = 24 / 25 ∧
    (bDmrg true hopWs (fun t => svdSplit fac t 2) hopS).fresh 0 true hopS = .ok (-1, s') ∧
    energy (hopWs.map denseOf) (s'.map denseOf) = -1 := by
  obtain ⟨fac, h1, h2, h3, h4⟩ := svdReal_exists
  obtain ⟨s', b1, _, b3⟩ := hop_first true fac h1 h2 h3 h4 true
  exact ⟨fac, s', hopStart_energy, b1, b3⟩

theorem hop_canonical : Canonical (hopS.map denseOf) 0 := by
  refine ⟨fun i A _ h => by omega, fun i A h hi => ?_⟩
  match i, hi with
  | 1, _ =>
    have h : denseOf hopB = A := by simpa using h
    subst h
    intro a b ha hb
    change a < 2 at ha
    change b < 2 at hb
    have e2 : ∀ b, b < 2 → ∀ k, k < 2 → (denseOf hopB).f [k, b, 0] = if b + k = 1 then 1 else 0 := by
      intro a ha k hk
      interval_cases a <;> interval_cases k <;> rfl
    show ∑ s ∈ range 2, ∑ j ∈ range 1, (denseOf hopB).f [a, s, j] * star ((denseOf hopB).f [b, s, j]) = _
    simp only [sum_range_succ, sum_range_zero]
    rw [e2 0 (by omega) a ha, e2 1 (by omega) a ha, e2 0 (by omega) b hb, e2 1 (by omega) b hb]
    interval_cases a <;> interval_cases b <;> simp
  | i + 2, _ => simp at h

/-- The hypotheses of C82 are met, with any number of sweeps. -/
example : ∃ fac : Blk ℝ → Blk ℝ × Blk ℝ × Blk ℝ, ∀ (late : Bool) (dflt : Res (BT Int ℝ)) (above : ℝ → ℝ → Bool)
    (zeroNorm : List (BT Int ℝ) → Bool) (moveOc : List (BT Int ℝ) → Nat → Nat → Res (List (BT Int ℝ) × Nat)) (maxIt : Nat), 1 ≤ maxIt →
    ∃ e fin log, DM.dmrg false (bDmrg late hopWs (fun t => svdSplit fac t 2) hopS) dflt above zeroNorm moveOc 100000 maxIt 2 hopS 0
        = .ok (e, fin, 0, log) ∧ e = energy (hopWs.map denseOf) (fin.map denseOf) ∧ -1 ≤ e ∧ e ≤ 24 / 25 := by
  obtain ⟨fac, h1, h2, h3, h4⟩ := svdReal_exists
  refine ⟨fac, fun late dflt above zeroNorm moveOc maxIt hmax => ?_⟩
  have hg := hopStart
  obtain ⟨s1, b1, b2, b3⟩ := hop_first late fac h1 h2 h3 h4 false
  have hreg : DM.RunAll (bDmrg late hopWs (fun t => svdSplit fac t 2) hopS) (Admissible late hopWs hopS)
      (DM.tours 2 0 maxIt) hopS := by
    obtain ⟨k, rfl⟩ : ∃ k, maxIt = k + 1 := ⟨maxIt - 1, by omega⟩
    rw [DM.tours_succ]
    refine ⟨hop_admissible hg late (.inl hopStart_energy), fun r hr => ?_⟩
    rw [b1] at hr
    cases hr
    refine hop_run late fac h1 h2 h3 h4 _ s1 ?_ b2 b3
    intro p hp
    have : ∀ n, ∀ p ∈ DM.tours 2 0 n, p.1 = 0 := by
      intro n p hp
      unfold DM.tours at hp
      rw [List.mem_flatten] at hp
      obtain ⟨l, hl, hpl⟩ := hp
      rw [(List.mem_replicate.1 hl).2] at hpl
      simp [tour] at hpl
      rw [hpl]
    rcases List.mem_cons.1 hp with h | h
    · rw [h]
    · exact this k p h
  obtain ⟨e, fin, log, c1, c2, c3, c4, c5, c6, c7, c8⟩ := C82_descent_partial late hopWs hopS fac h1 h2 h3 h4 hg.fit hopPositive hg.closed hopClosedW
    (hopLate late) hopNeutral hop_herm (by simp) (by simp) 0 (by simp) hop_canonical hg.norm dflt above zeroNorm moveOc 100000 maxIt hmax hreg
  rw [hopStart_energy] at c6
  exact ⟨e, fin, log, c1, c5, c7 (-1) hop_bound, c6⟩

end QuantiT.BN
