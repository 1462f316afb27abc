import Verif.Props.Sector
import Verif.Props.BlockCutEx
import Verif.Lemmas.ColdStart
/-
Cases that meet the hypotheses of C103.
-/
namespace QuantiT.DM
open Spec
theorem RunAll.mono {S E : Type} (d : Dmrg S E ℝ) {P Q : Nat → List S → Prop} (h : ∀ o s, P o s → Q o s) :
    ∀ (l : List (Nat × Bool)) (s : List S), RunAll d P l s → RunAll d Q l s
  | [], _, _ => trivial
  | _ :: l, _, hr => ⟨h _ _ hr.1, fun r hx => RunAll.mono d h l _ (hr.2 r hx)⟩
end QuantiT.DM

namespace QuantiT.BN
open Spec BT MP Finset

theorem hop_conserving : ConservingOp hopWs :=
  ⟨hopFit.op, by
    intro W hW
    simp only [List.mem_cons, List.not_mem_nil, or_false] at hW
    rcases hW with rfl | rfl <;> rfl, hopPositive, hopClosedW, hopNeutral, by decide⟩

theorem hopS_positive : AllPositive hopS := hopStart.start.positive

/-- The hypotheses of `C103_stays_partial` are met, with any number of sweeps, any cutoff and any limits of the bond: the states with two
charges of the same sign never appear. -/
example : ∃ fac : Blk ℝ → Blk ℝ × Blk ℝ × Blk ℝ, ∀ (late : Bool) (dflt : Res (BT Int ℝ)) (above : ℝ → ℝ → Bool) (zeroNorm : List (BT Int ℝ) → Bool)
    (moveOc : List (BT Int ℝ) → Nat → Nat → Res (List (BT Int ℝ) × Nat)) (maxIt : Nat), 1 ≤ maxIt → ∀ (cutoff : ℝ), 0 ≤ cutoff →
    ∀ minB maxB, 1 ≤ minB → ∃ e fin log,
      DM.dmrg false (cutDmrgB late hopWs fac (1/1000) cutoff minB maxB hopS) dflt above zeroNorm moveOc 100000 maxIt 2 hopS 0 = .ok (e, fin, 0, log) ∧
      (∃ n, Event.iteration n e fin ∈ log) ∧
      ∀ s, SeenBy fin log s → amp (s.map denseOf) [0, 0] 0 0 = 0 ∧ amp (s.map denseOf) [1, 1] 0 0 = 0 := by
  obtain ⟨fac, hfac⟩ := LA.denseSvd_exists ℝ
  refine ⟨fac, fun late dflt above zeroNorm moveOc maxIt hmax cutoff hcut minB maxB hmin => ?_⟩
  have hg := hopStart
  obtain ⟨hr1, -⟩ := hop_cut_run hfac (1/1000) cutoff (by norm_num) (by norm_num) hcut minB maxB hmin late (DM.tours 2 0 maxIt) hopS
    (DM.tours_two_zero maxIt) hg (.inl rfl)
  obtain ⟨e, fin, log, c1, ⟨n, c2, _⟩, c3⟩ := C97_run_partial late hopWs hopS hfac (1/1000) cutoff (by norm_num) (by norm_num) hcut minB maxB (.inl hmin) hg.fit
    hopPositive hg.closed hopClosedW (hopLate late) hopNeutral hop_herm (by simp) (by simp) 0 (by simp) (DM.canonical_semi hop_canonical) hg.norm dflt above
    zeroNorm moveOc 100000 maxIt hmax hr1
  refine ⟨e, fin, log, c1, ⟨n, c2⟩, fun s hs => ?_⟩
  obtain ⟨h1, h2⟩ := C103_stays_partial late hopWs hopS hfac (1/1000) cutoff minB maxB hg.fit hopS_positive hg.closed hop_conserving (by simp) (by simp) 0
    (by simp) dflt above zeroNorm moveOc 100000 maxIt (DM.RunAll.mono _ (fun o s h => LastKept.countable hfac (fun t ht => Tidy.lastKept (h.tidy t ht)) h.few) _ _ hr1) c1 (σ0 := [0, 1]) rfl
    (by rw [hopStart_amp 0 1 (by omega) (by omega)]; norm_num) s hs
  have hl : s.length = 2 := by simpa [physDims] using congrArg List.length h1
  rw [h1] at h2
  constructor
  · by_contra h
    exact absurd (h2 [0, 0] (by simp [hl]) h) (by decide)
  · by_contra h
    exact absurd (h2 [1, 1] (by simp [hl]) h) (by decide)

/-! ### A start from a conserved quantity

Two sites; the first holds charge 1 only.  The operator is `-1` on the configuration of charge 2 and `1` on that of charge 0. -/

/-- The operator on the first site. -/
def fixW1 : BT Int ℝ := ⟨[[(1, 0)], [(1, 1)], [(1, 0)], [(1, -1)]], 0, [([0, 0, 0, 0], coefR 4 (-1))]⟩
/-- The operator on the second site. -/
def fixW2 : BT Int ℝ := ⟨[[(1, 0)], [(1, 1), (1, -1)], [(1, 0)], [(1, -1), (1, 1)]], 0,
  [([0, 0, 0, 0], coefR 4 1), ([0, 1, 0, 1], coefR 4 (-1))]⟩
abbrev fixWs : List (BT Int ℝ) := [fixW1, fixW2]
/-- The random state of charge 2. -/
def fixA : BT Int ℝ := ⟨[[(1, 0)], [(1, 1)], [(1, 1)]], 2, [([0, 0, 0], ⟨[1, 1, 1], fun _ => 1⟩)]⟩
@[inherit_doc fixA]
def fixB : BT Int ℝ := ⟨[[(1, -1)], [(1, 1), (1, -1)], [(1, 0)]], 0, [([0, 0, 0], ⟨[1, 1, 1], fun _ => 1⟩)]⟩

theorem fix_unit {x : ℝ} (h : x = 1 / (RCLike.ofReal (K := ℝ) (√(RCLike.re ((1 * star (1:ℝ) + 0) + 0))))) : x = 1 := by rw [h]; simp

theorem fixA_unit : unitSite fixA = .ok fixA := by
  obtain ⟨z, h1, h2, h3⟩ : ∃ z, unitSite fixA = .ok ⟨[[(1, 0)], [(1, 1)], [(1, 1)]], 2, [([0, 0, 0], z)]⟩ ∧ z.dims = [1, 1, 1] ∧ z.f = fun _ => 1 :=
    ⟨_, by rfl, by rfl, funext fun o => fix_unit (by rfl)⟩
  rw [h1]
  obtain ⟨d, f⟩ := z
  subst h2 h3
  rfl

theorem fixB_unit : unitSite fixB = .ok fixB := by
  obtain ⟨z, h1, h2, h3⟩ : ∃ z, unitSite fixB = .ok ⟨[[(1, -1)], [(1, 1), (1, -1)], [(1, 0)]], 0, [([0, 0, 0], z)]⟩ ∧ z.dims = [1, 1, 1] ∧ z.f = fun _ => 1 :=
    ⟨_, by rfl, by rfl, funext fun o => fix_unit (by rfl)⟩
  rw [h1]
  obtain ⟨d, f⟩ := z
  subst h2 h3
  rfl

theorem fix_sites : RM.siteLoop (R := ℝ) (fun _ _ _ _ => 1) (2 : Int) [[0, 0]] 0 [⟨[[(1, 1)]], 0, []⟩, ⟨[[(1, 1), (1, -1)]], 0, []⟩] ⟨[[(1, 0)]], 0, []⟩ [2] =
    .ok [fixA, fixB] := by
  obtain ⟨x, y, h1, rfl, rfl⟩ : ∃ x y, RM.siteLoop (R := ℝ) (fun _ _ _ _ => 1) (2 : Int) [[0, 0]] 0 [⟨[[(1, 1)]], 0, []⟩, ⟨[[(1, 1), (1, -1)]], 0, []⟩]
      ⟨[[(1, 0)]], 0, []⟩ [2] = .ok [⟨[[(1, 0)], [(1, 1)], [(1, 1)]], 2, [([0, 0, 0], x)]⟩, ⟨[[(1, -1)], [(1, 1), (1, -1)], [(1, 0)]], 0, [([0, 0, 0], y)]⟩] ∧
      x = ⟨[1, 1, 1], fun _ => 1⟩ ∧ y = ⟨[1, 1, 1], fun _ => 1⟩ := ⟨_, _, by rfl, by rfl, by rfl⟩
  exact h1

theorem fix_view : BT.basicCreateView fixB [-1, -1, 0] true = .ok fixB := by rfl
theorem fix_random : randomFor RM.zdist 1 fixWs 2 (fun _ _ => 0) (fun _ _ _ _ => 1) = .ok [fixA, fixB] := by
  have h1 : fixWs.mapM physFrom = .ok [⟨[[(1, 1)]], 0, []⟩, ⟨[[(1, 1), (1, -1)]], 0, []⟩] := by rfl
  have h2 : (List.range 1).mapM (fun j => RM.generate (G := Int) RM.zdist [[1], [1, -1]] 2 2 ((fun _ _ => 0 : Nat → Nat → Nat) j)) = .ok [[0, 0]] := by rfl
  have h3 : ([fixA, fixB] : List (BT Int ℝ)).mapM unitSite = .ok [fixA, fixB] := by
    rw [List.mapM_cons, fixA_unit]
    show (do let rs ← [fixB].mapM unitSite; _ : Res _) = _
    rw [List.mapM_cons, fixB_unit]
    rfl
  have h4 : randomUnit RM.zdist 1 ([⟨[[(1, 1)]], 0, []⟩, ⟨[[(1, 1), (1, -1)]], 0, []⟩] : List (BT Int ℝ)) 2 2 (fun _ _ => 0) (fun _ _ _ _ => 1) = .ok [fixA, fixB] := by
    unfold randomUnit
    have e : ([⟨[[(1, 1)]], 0, []⟩, ⟨[[(1, 1), (1, -1)]], 0, []⟩] : List (BT Int ℝ)).map RM.cvalsOf = [[1], [1, -1]] := rfl
    rw [e, h2]
    simp only [bind, Except.bind]
    rw [show List.replicate 1 (2 : Int) = [2] from rfl, fix_sites]
    simp only [h3, List.getLast?_cons_cons, List.getLast?_singleton, BT.orUb, fix_view]
    rfl
  unfold randomFor
  rw [h1]
  exact h4

abbrev fixS : List (BT Int ℝ) := [fixA, fixB]

theorem fixW1_sound : Sound fixW1 := sound_of (by unfold Sorted; simp [fixW1]) (by
  intro kb h; simp only [fixW1, List.mem_cons, List.not_mem_nil, or_false] at h
  rcases h with rfl; exact ⟨_, rfl, by decide, rfl⟩) (by unfold fixW1; simp)
theorem fixW2_sound : Sound fixW2 := sound_of (by unfold Sorted; simp [fixW2]; decide) (by
  intro kb h; simp only [fixW2, List.mem_cons, List.not_mem_nil, or_false] at h
  rcases h with rfl | rfl <;> exact ⟨_, rfl, by decide, rfl⟩) (by unfold fixW2; simp)
theorem fixA_sound : Sound fixA := sound_of (by unfold Sorted; simp [fixA]) (by
  intro kb h; simp only [fixA, List.mem_cons, List.not_mem_nil, or_false] at h
  rcases h with rfl; exact ⟨_, rfl, by decide, rfl⟩) (by unfold fixA; simp)
theorem fixB_sound : Sound fixB := sound_of (by unfold Sorted; simp [fixB]) (by
  intro kb h; simp only [fixB, List.mem_cons, List.not_mem_nil, or_false] at h
  rcases h with rfl; exact ⟨_, rfl, by decide, rfl⟩) (by unfold fixB; simp)

theorem fixChain : Chained 3 fixS := chained_two fixA_sound fixB_sound rfl rfl (.cons ⟨rfl, by decide⟩ .nil)

theorem fixFit : BlockFit fixS fixWs fixS :=
  ⟨fixChain, chained_two fixW1_sound fixW2_sound rfl rfl (.cons ⟨rfl, by decide⟩ .nil), fixChain,
    .cons (.cons ⟨rfl, by decide⟩ .nil) (.cons (.cons ⟨rfl, by decide⟩ (.cons ⟨rfl, by decide⟩ .nil)) .nil),
    .cons rfl (.cons rfl .nil)⟩

theorem fix_conserving : ConservingOp fixWs :=
  ⟨fixFit.op, by
    intro W hW
    simp only [List.mem_cons, List.not_mem_nil, or_false] at hW
    rcases hW with rfl | rfl <;> rfl, by
    intro t ht d hd
    simp only [List.mem_cons, List.not_mem_nil, or_false] at ht
    rcases ht with rfl | rfl
    · simp only [fixW1, List.mem_cons, List.not_mem_nil, or_false] at hd
      rcases hd with rfl | rfl | rfl | rfl <;> decide
    · simp only [fixW2, List.mem_cons, List.not_mem_nil, or_false] at hd
      rcases hd with rfl | rfl | rfl | rfl <;> decide, ⟨rfl, rfl⟩, by unfold Neutral; decide, by decide⟩

theorem fix_entry (b d : Nat) (hb : b < 2) (hd : d < 2) :
    opEntry (fixWs.map denseOf) [0, b] [0, d] 0 0 = if b = d then (if b = 0 then -1 else 1) else 0 := by
  have e1 : (denseOf fixW1).f [0, 0, 0, 0] = -1 := rfl
  have e2 : ∀ x y, x < 2 → y < 2 → (denseOf fixW2).f [0, x, 0, y] = if x = y then (if x = 0 then 1 else -1) else 0 := by
    intro x y hx hy
    interval_cases x <;> interval_cases y <;> rfl
  have d1 : (denseOf fixW1).dims[2]?.getD 0 = 1 := rfl
  have d2 : (denseOf fixW2).dims[2]?.getD 0 = 1 := rfl
  simp only [opEntry, mpoEntry, List.map_cons, List.map_nil, List.getD_eq_getElem?_getD, d1, d2, sum_range_succ, sum_range_zero,
    List.getElem?_cons_zero, List.getElem?_cons_succ, Option.getD_some, Nat.zero_add]
  rw [e1, e2 b d hb hd]
  interval_cases b <;> interval_cases d <;> simp

theorem sum_one_two (f : List Nat → ℝ) : ∑ σ ∈ configs [1, 2], f σ = f [0, 0] + f [0, 1] := by
  rw [show configs [1, 2] = {[0, 0], [0, 1]} by decide]
  rw [sum_insert (by decide), sum_singleton]

theorem fix_herm : HermitianOp (fixWs.map denseOf) [1, 2] := by
  intro σ hσ τ hτ
  rw [mem_configs] at hσ hτ
  obtain ⟨a, b, rfl⟩ : ∃ x y, σ = [x, y] := List.length_eq_two.1 (by simpa using hσ.length_eq)
  obtain ⟨c, d, rfl⟩ : ∃ x y, τ = [x, y] := List.length_eq_two.1 (by simpa using hτ.length_eq)
  unfold InRange at hσ hτ
  simp at hσ hτ
  obtain ⟨rfl, h2⟩ := hσ
  obtain ⟨rfl, h4⟩ := hτ
  rw [fix_entry b d (by omega) (by omega), fix_entry d b (by omega) (by omega), star_trivial]
  interval_cases b <;> interval_cases d <;> simp

theorem fix_energy {s : List (Blk ℝ)} (h : phys s = [1, 2]) :
    energy (fixWs.map denseOf) s = amp s [0, 1] 0 0 ^ 2 - amp s [0, 0] 0 0 ^ 2 := by
  unfold energy sandwich
  rw [h]
  simp only [star_trivial, sum_one_two]
  rw [fix_entry 0 0 (by omega) (by omega), fix_entry 0 1 (by omega) (by omega), fix_entry 1 0 (by omega) (by omega), fix_entry 1 1 (by omega) (by omega)]
  simp
  ring

/-- A normalised chain with the outer dimensions of the example. -/
structure FixGood (s : List (BT Int ℝ)) : Prop where
  fit : BlockFit s fixWs s
  outer : SameOuter fixS s
  closed : Closed (s.map denseOf)
  norm : normSq (s.map denseOf) = 1

/-- A chain with the outer dimensions of the example that is not zero. -/
structure FixLoose (s : List (BT Int ℝ)) : Prop where
  fit : BlockFit s fixWs s
  outer : SameOuter fixS s
  closed : Closed (s.map denseOf)
  up : amp (s.map denseOf) [0, 0] 0 0 ≠ 0

theorem FixLoose.phys {s : List (BT Int ℝ)} (h : FixLoose s) : phys (s.map denseOf) = [1, 2] :=
  (SameOuter.phys_dense h.outer).trans rfl

theorem FixLoose.len {s : List (BT Int ℝ)} (h : FixLoose s) : s.length = 2 := (SameOuter.length_eq h.outer).trans rfl

theorem FixGood.phys {s : List (BT Int ℝ)} (h : FixGood s) : phys (s.map denseOf) = [1, 2] :=
  (SameOuter.phys_dense h.outer).trans rfl

theorem FixGood.len {s : List (BT Int ℝ)} (h : FixGood s) : s.length = 2 := (SameOuter.length_eq h.outer).trans rfl

theorem fixS_positive : AllPositive fixS := by
  intro t ht d hd
  simp only [List.mem_cons, List.not_mem_nil, or_false] at ht
  rcases ht with rfl | rfl
  · simp only [fixA, List.mem_cons, List.not_mem_nil, or_false] at hd
    rcases hd with rfl | rfl | rfl <;> decide
  · simp only [fixB, List.mem_cons, List.not_mem_nil, or_false] at hd
    rcases hd with rfl | rfl | rfl <;> decide

theorem FixGood.start {s : List (BT Int ℝ)} (h : FixGood s) : StartChain fixS s :=
  ⟨by simp, fixChain, fixS_positive, h.outer.left.symm, h.outer.right.symm⟩

/-- The other configuration has another charge. -/
theorem FixGood.down {s : List (BT Int ℝ)} (h : FixGood s) : amp (s.map denseOf) [0, 1] 0 0 = 0 := by
  by_contra hne
  have := amp_charge s (by intro e; have := h.len; rw [e] at this; cases this) h.fit.ket [0, 1] 0 0 (by simp [h.len]) hne
  rw [h.outer.left, h.outer.right, h.outer.rule, h.outer.phys] at this
  exact absurd this (by decide)

theorem FixGood.up {s : List (BT Int ℝ)} (h : FixGood s) : amp (s.map denseOf) [0, 0] 0 0 ^ 2 = 1 := by
  have h1 := h.norm
  unfold normSq at h1
  rw [h.phys, sum_one_two, h.down] at h1
  simpa using h1

theorem FixGood.loose {s : List (BT Int ℝ)} (h : FixGood s) : FixLoose s :=
  ⟨h.fit, h.outer, h.closed, fun h0 => by
    have := h.up
    rw [h0] at this
    norm_num at this⟩

theorem FixGood.energy {s : List (BT Int ℝ)} (h : FixGood s) : energy (fixWs.map denseOf) (s.map denseOf) = -1 := by
  rw [fix_energy h.phys, h.down, h.up]
  norm_num

theorem fix_regular {s : List (BT Int ℝ)} (hs : FixGood s) : DM.Regular (fixWs.map denseOf) (s.map denseOf) 0 := by
  intro ψ ψ' h
  right
  obtain ⟨d, e, h1, hψd, hf⟩ := DM.two_site_entries (fit_dense hs.fit) hs.closed fix_conserving.closed (by simpa using hs.len) h
  rw [hs.phys] at h1
  obtain ⟨rfl, rfl⟩ : 1 = d ∧ 2 = e := by simpa using h1
  rw [hs.energy]
  refine ⟨by norm_num, fun o ho => ?_⟩
  rw [hψd] at ho
  have hcf : configs [1, 1, 2, 1] = {[0, 0, 0, 0], [0, 0, 1, 0]} := by decide
  rw [hcf] at ho
  simp only [mem_insert, mem_singleton] at ho
  rcases ho with rfl | rfl
  · rw [(hf 0 0 (by omega) (by omega)).1, (hf 0 0 (by omega) (by omega)).2, hs.phys, sum_one_two,
      fix_entry 0 0 (by omega) (by omega), fix_entry 0 1 (by omega) (by omega)]
    simp
  · rw [(hf 0 1 (by omega) (by omega)).1, (hf 0 1 (by omega) (by omega)).2, hs.phys, sum_one_two,
      fix_entry 1 0 (by omega) (by omega), fix_entry 1 1 (by omega) (by omega), hs.down]
    simp

theorem fix_keys {t : BT Int ℝ} (h : Sound t) (hs : t.shape = [[(1, 0)], [(1, 1)], [(1, 1), (1, -1)], [(1, 0)]]) (hr : t.rule = 2)
    {k : List Nat} {v : Blk ℝ} (hk : (k, v) ∈ t.blocks) : k = [0, 0, 0, 0] := by
  obtain ⟨secs, h1, h2, _⟩ := h.1.block k v hk
  rw [hs] at h1
  rw [hr] at h2
  have key : ∀ (k : List Nat) (secs : List (Nat × Int)), sections [[(1, 0)], [(1, 1)], [(1, 1), (1, -1)], [(1, 0)]] k = some secs →
      charge secs = 2 → k = [0, 0, 0, 0] := by
    intro k secs h1 h2
    match k, h1 with
    | [a, b, c, d], h1 =>
      match a, b, c, d, h1 with
      | 0, 0, 0, 0, h1 => rfl
      | 0, 0, 1, 0, h1 => cases h1; exact absurd h2 (by decide)
      | a + 1, b, c, d, h1 => simp [sections] at h1
      | 0, b + 1, c, d, h1 => simp [sections] at h1
      | 0, 0, c + 2, d, h1 => simp [sections] at h1
      | 0, 0, 0, d + 1, h1 => simp [sections] at h1
      | 0, 0, 1, d + 1, h1 => simp [sections] at h1
    | [], h1 => simp [sections] at h1
    | [_], h1 => simp [sections] at h1
    | [_, _], h1 => simp [sections] at h1
    | [_, _, _], h1 => simp [sections] at h1
    | _ :: _ :: _ :: _ :: _ :: _, h1 => simp [sections] at h1
  exact key k secs h1 h2

/-- The two-site tensor and its product with the operator store the one block their rule allows. -/
theorem fix_shared {s0 s : List (BT Int ℝ)} (hs : FixLoose s) (h0 : StartChain s0 s) (late : Bool) (ψ ψ' : BT Int ℝ) (h : BlockPair late fixWs s0 s 0 ψ ψ') :
    Shared ψ ψ' := by
  obtain ⟨x, x', p1, p2, p3, p4, p5, A, B, gA, gB, p6, p7⟩ := BlockPair.rep hs.fit h0 fix_conserving.positive hs.closed fix_conserving.closed
    (.inr fix_conserving.edges) fix_conserving.neutral (by rw [hs.len]; omega) h
  obtain ⟨d, e, h1, hψd, hf⟩ := DM.two_site_entries (fit_dense hs.fit) hs.closed fix_conserving.closed (by simpa using hs.len) p1
  rw [hs.phys] at h1
  obtain ⟨rfl, rfl⟩ : 1 = d ∧ 2 = e := by simpa using h1
  have f1 := hf 0 0 (by omega) (by omega)
  rw [hs.phys, sum_one_two, fix_entry 0 0 (by omega) (by omega), fix_entry 0 1 (by omega) (by omega)] at f1
  have hU : amp (s.map denseOf) [0, 0] 0 0 ≠ 0 := hs.up
  have q1 := hs.outer.phys
  have q2 := hs.outer.left
  have q3 := hs.outer.right
  have q4 := hs.outer.rule
  obtain ⟨A', B', rfl⟩ := List.length_eq_two.1 hs.len
  cases gA; cases gB
  simp only [List.map_cons, List.map_nil, List.cons.injEq, and_true] at q1
  have hsh : ψ.shape = [[(1, 0)], [(1, 1)], [(1, 1), (1, -1)], [(1, 0)]] := by
    rw [p7, q1.1, q1.2, show A.shape.getD 0 [] = _ from q2, show B.shape.getD 2 [] = _ from q3]
    rfl
  have hru : ψ.rule = 2 := by
    rw [p6]
    simpa [fixA, fixB] using q4
  have hin : InRange [0, 0, 0, 0] (ψ.shape.map dimSize) := by
    rw [hsh]
    unfold InRange
    decide
  have l1 : locateAll ψ.shape [0, 0, 0, 0] = some ([0, 0, 0, 0], [0, 0, 0, 0]) := by rw [hsh]; rfl
  obtain ⟨v1, m1⟩ := stored_of_entry l1 (by rw [← p2.f hin, f1.1]; exact hU)
  obtain ⟨v3, m3⟩ := stored_of_entry (t := ψ') (by rw [p4]; exact l1) (by
    rw [← p3.f (by rw [p4]; exact hin), f1.2]
    simpa using hU)
  refine ⟨⟨_, v1, v3, m1, m3⟩, fun y hy => ?_⟩
  obtain ⟨k, v⟩ := y
  cases fix_keys p3.1 (p4.trans hsh) (p5.trans hru) hy
  exact ⟨_, m1, le_refl _⟩

theorem fix_small {s : List (BT Int ℝ)} (hs : FixLoose s) {A : BT Int ℝ} (hA : s[0]? = some A) : A.shape.take 2 = [[(1, 0)], [(1, 1)]] := by
  have hF := hs.fit.ket
  have q1 := hs.outer.phys
  have q2 := hs.outer.left
  obtain ⟨A', B', rfl⟩ := List.length_eq_two.1 hs.len
  cases hA
  obtain ⟨l, c, r, hA⟩ : ∃ l c r, A.shape = [l, c, r] := List.length_eq_three.1 (hF.1 _ (by simp)).2
  simp only [List.map_cons, List.map_nil, List.cons.injEq, and_true] at q1
  have q1 := q1.1
  have q2 : A.shape.getD 0 [] = _ := q2
  rw [hA] at q1 q2 ⊢
  simp at q1 q2
  subst q1 q2
  rfl

/-- The new two-site tensor has one row, which is not zero. -/
theorem fix_pair {fac : Blk ℝ → Blk ℝ × Blk ℝ × Blk ℝ} (hfac : DenseSvd fac) (eps cutoff : ℝ) (he0 : 0 < eps) (hcut : 0 ≤ cutoff) (minB maxB : Nat)
    (hmin : 1 ≤ minB) {s0 s : List (BT Int ℝ)} (hs : FixLoose s) (h0 : StartChain s0 s)
    (halive : ∀ E θ, DM.Found (fixWs.map denseOf) (s.map denseOf) 0 E θ → ∃ q ∈ configs θ.dims, θ.f q ≠ 0)
    (late : Bool) (t : BT Int ℝ) (h : NewPair late fixWs s0 s 0 t) :
    Tidy fac eps cutoff minB maxB t 2 := by
  obtain ⟨A, B, W1, W2, le, re, h2, ψ, -, E, θ, n, i, m, j, n', -, gA, gB, gW1, gW2, i1, i2, i3, hψ, hA, hB, -, -, -, t1, t2, -⟩ :=
    DM.cold_found (fixWs.map denseOf) (s.map denseOf) 0 (fit_dense hs.fit) hs.closed fix_conserving.closed (by simp [hs.len])
  obtain ⟨w, hw, hw0⟩ := halive E θ ⟨A, B, W1, W2, le, re, h2, ψ, gA, gB, gW1, gW2, hψ, i1, i2, i3, t1⟩
  obtain ⟨A0, B0, V1, V2, L, Rt, Le, Re, H2, q, le', re', h2', ψ', l, c, k, k', c', r, N, S⟩ :=
    update_setup late fixWs s0 s (fun _ => Res.ub) 0 hs.fit h0 fix_conserving.positive hs.closed fix_conserving.closed (.inr fix_conserving.edges)
      fix_conserving.neutral (by rw [hs.len]; omega)
  rw [List.getElem?_map] at gA gB gW1 gW2
  rw [S.gA] at gA; cases gA
  rw [S.gB] at gB; cases gB
  rw [S.gW1] at gW1; cases gW1
  rw [S.gW2] at gW2; cases gW2
  rw [S.dl] at i1; cases i1
  rw [S.dr] at i2; cases i2
  rw [S.dh] at i3; cases i3
  rw [S.dq] at hψ; cases hψ
  obtain ⟨N5, fe, t', a1, a2, a3, a4, a5, a6⟩ := twoSitesUpdateB_ok S.fit (by
    intro M ψ' hψ'
    refine fix_shared hs h0 late q ψ' ⟨A0, B0, V1, V2, L, Rt, Le, Re, H2, max M N, S.gA, S.gB, S.gW1, S.gW2, fun fuel hf => ?_⟩
    obtain ⟨y1, y2, y3, y4, y5⟩ := S.runs fuel (by omega)
    exact ⟨y1, y2, y3, y4, y5, hψ' fuel (by omega)⟩) t1
  obtain ⟨X1, X2, X3, X4, X5, X6, X7, X8, X9, X10, X11, N6, z1, z2, z3, z4, z5⟩ := h
  rw [S.gA] at z1; cases z1
  rw [S.gB] at z2; cases z2
  rw [S.gW1] at z3; cases z3
  rw [S.gW2] at z4; cases z4
  obtain ⟨y1, y2, y3, y4, y5⟩ := S.runs (max N (max N5 N6)) (by omega)
  obtain ⟨w1, w2, w3, w4, w5, w6⟩ := z5 (max N (max N5 N6)) (by omega)
  rw [y1] at w1; cases w1
  rw [y2] at w2; cases w2
  rw [y3] at w3; cases w3
  rw [y4] at w4; cases w4
  rw [y5] at w5; cases w5
  rw [a1 _ (by omega)] at w6; cases w6
  obtain ⟨A1, B1, rfl⟩ := List.length_eq_two.1 hs.len
  have q1 := hs.outer.phys
  have q2 : A1.shape.getD 0 [] = _ := hs.outer.left
  have q3 : B1.shape.getD 2 [] = _ := hs.outer.right
  have gA := S.gA
  have gB := S.gB
  simp only [List.getElem?_cons_zero, List.getElem?_cons_succ, Option.some.injEq] at gA gB
  subst gA gB
  simp only [List.map_cons, List.map_nil, List.cons.injEq, and_true] at q1
  obtain ⟨q4, q5⟩ := q1
  have dA := S.dA
  have dB := S.dB
  rw [dA] at q2 q4
  rw [dB] at q3 q5
  simp only [List.getD_cons_zero, List.getD_cons_succ] at q2 q3 q4 q5
  have hsh : t.shape = [[(1, 0)], [(1, 1)], [(1, 1), (1, -1)], [(1, 0)]] := by
    rw [a3, S.sq, q2, q3, q4, q5]
    rfl
  rw [denseOf_dims, dA] at hA
  rw [denseOf_dims, dB] at hB
  obtain ⟨rfl, rfl, rfl⟩ : dimSize l = n ∧ dimSize c = i ∧ dimSize k = m := by simpa using hA
  obtain ⟨-, rfl, rfl⟩ : dimSize k' = dimSize k ∧ dimSize c' = j ∧ dimSize r = n' := by simpa using hB
  have hnorm : 0 < θ.f [0, 0, 0, 0] ^ 2 + θ.f [0, 0, 1, 0] ^ 2 := by
    have hcf : configs θ.dims = {[0, 0, 0, 0], [0, 0, 1, 0]} := by
      rw [t2, q2, q3, q4, q5]
      decide
    rw [hcf] at hw
    simp only [mem_insert, mem_singleton] at hw
    rcases hw with rfl | rfl
    · have := sq_pos_of_ne_zero hw0
      positivity
    · have := sq_pos_of_ne_zero hw0
      positivity
  have hin : ∀ b, b < 2 → InRange [0, 0, b, 0] (t.shape.map dimSize) := by
    intro b hb
    rw [hsh]
    unfold InRange
    simp only [List.map_cons, List.map_nil]
    exact .cons (by decide) (.cons (by decide) (.cons hb (.cons (by decide) .nil)))
  have hent : ∀ b, b < 2 → entry t.shape t.blocks [0, 0, b, 0] = θ.f [0, 0, b, 0] := fun b hb => (a5.f (hin b hb)).symm
  refine tidy_level hfac t [[(1, 0)], [(1, 1)]] [[(1, 1), (1, -1)], [(1, 0)]] hsh (by simp) (by simp) a5.1.1 ?_ ?_ (by decide) eps cutoff he0 hcut
    minB maxB hmin _ hnorm ?_
  · rw [hsh]; decide
  · rw [hsh]; unfold NoEmpty; decide
  · have c1 : configs (([[(1, 0)], [(1, 1)]] : Shape Int).map dimSize) = {[0, 0]} := by decide
    have c2 : configs (([[(1, 1), (1, -1)], [(1, 0)]] : Shape Int).map dimSize) = {[0, 0], [1, 0]} := by decide
    rw [c1, c2]
    intro e he e' he'
    rw [sum_insert (by decide), sum_singleton]
    simp only [mem_singleton] at he he'
    have g1 := hent 0 (by omega)
    have g2 := hent 1 (by omega)
    subst he he'
    simp [g1, g2]
    linarith

/-- The eigensolver does not annihilate a normalised chain. -/
theorem fix_alive {s : List (BT Int ℝ)} (hs : FixGood s) (E : ℝ) (θ : Blk ℝ) (h : DM.Found (fixWs.map denseOf) (s.map denseOf) 0 E θ) :
    ∃ q ∈ configs θ.dims, θ.f q ≠ 0 := by
  obtain ⟨A, B, W1, W2, le, re, h2, ψ, E', θ', n, i, m, j, n', gA, gB, gW1, gW2, i1, i2, i3, hψ, t1, hA, hB, t2, t3, -⟩ :=
    DM.update_full_semi (fixWs.map denseOf) (s.map denseOf) 0 (fit_dense hs.fit) hs.closed fix_conserving.closed (by rw [hs.phys]; exact fix_herm)
      (by simp [hs.len]) (hop_semi (by simpa using hs.len)) hs.norm (fix_regular hs)
  obtain ⟨A1, B1, V1, V2, le1, re1, h21, ψ1, x1, x2, x3, x4, x5, x6, x7, x8, x9⟩ := h
  rw [gA] at x1; cases x1
  rw [gB] at x2; cases x2
  rw [gW1] at x3; cases x3
  rw [gW2] at x4; cases x4
  rw [hψ] at x5; cases x5
  rw [i1] at x6; cases x6
  rw [i2] at x7; cases x7
  rw [i3] at x8; cases x8
  rw [t1] at x9; cases x9
  by_contra hcon
  push Not at hcon
  rw [t2] at hcon
  have h1 := DM.norm_toV [n, i, j, n'] θ
  rw [t3, sum_eq_zero fun q hq => by rw [hcon q hq]; simp] at h1
  norm_num at h1

theorem fix_admissible {fac : Blk ℝ → Blk ℝ × Blk ℝ × Blk ℝ} (hfac : DenseSvd fac) (eps cutoff : ℝ) (he0 : 0 < eps) (hcut : 0 ≤ cutoff) (minB maxB : Nat)
    (hmin : 1 ≤ minB) {s : List (BT Int ℝ)} (hs : FixGood s) (late : Bool) : CutAdmissible late fixWs fixS fac eps cutoff minB maxB 0 s :=
  ⟨fix_regular hs, fun ψ ψ' h => fix_shared hs.loose hs.start late ψ ψ' h,
    fun t ht => fix_pair hfac eps cutoff he0 hcut minB maxB hmin hs.loose hs.start (fix_alive hs) late t ht,
    fun A hA => by rw [fix_small hs.loose hA]; decide, fun A hA => by rw [fix_small hs.loose hA]; decide⟩

theorem fix_run {fac : Blk ℝ → Blk ℝ × Blk ℝ × Blk ℝ} (hfac : DenseSvd fac) (eps cutoff : ℝ) (he0 : 0 < eps) (he1 : eps ≤ 1 / 2) (hcut : 0 ≤ cutoff)
    (minB maxB : Nat) (hmin : 1 ≤ minB) (late : Bool) : ∀ (l : List (Nat × Bool)) (s : List (BT Int ℝ)), (∀ p ∈ l, p.1 = 0) → FixGood s →
      DM.RunAll (cutDmrgB late fixWs fac eps cutoff minB maxB fixS) (CutAdmissible late fixWs fixS fac eps cutoff minB maxB) l s
  | [], _, _, _ => trivial
  | (o, f) :: l, s, hl, hg => by
    have ho : o = 0 := hl (o, f) (by simp)
    subst ho
    have hadm := fix_admissible hfac eps cutoff he0 hcut minB maxB hmin hg late
    refine ⟨hadm, fun r hr => ?_⟩
    obtain ⟨E, s', v, w, a1, a2, a3, a4, a5, a6, _⟩ := C97_update_partial late fixWs fixS s hfac eps cutoff he0 he1 hcut minB maxB (.inl hmin) 0 f
      hg.fit hg.start fix_conserving.positive hg.closed fix_conserving.closed (.inr fix_conserving.edges) fix_conserving.neutral
      (by rw [hg.phys]; exact fix_herm) (by rw [hg.len]; omega) (hop_semi (by simpa using hg.len)) hg.norm hadm
    rw [a1] at hr
    cases hr
    exact fix_run hfac eps cutoff he0 he1 hcut minB maxB hmin late l s' (fun p hp => hl p (by simp [hp])) ⟨a2, SameOuter.trans hg.outer a3, a4, a6⟩

theorem fixStart : FixGood fixS := by
  refine ⟨fixFit, SameOuter.refl _, ⟨rfl, rfl⟩, ?_⟩
  unfold normSq
  rw [show phys (fixS.map denseOf) = [1, 2] from rfl, sum_one_two]
  have e1 : (denseOf fixA).f [0, 0, 0] = 1 := rfl
  have e2 : (denseOf fixB).f [0, 0, 0] = 1 := rfl
  have e3 : (denseOf fixB).f [0, 1, 0] = 0 := rfl
  have d1 : (denseOf fixA).dims = [1, 1, 1] := rfl
  have d2 : (denseOf fixB).dims = [1, 2, 1] := rfl
  simp [amp, d1, d2, e1, e2, e3]

theorem fix_canonical : Canonical (fixS.map denseOf) 0 := by
  refine ⟨fun i A _ h => by omega, fun i A h hi => ?_⟩
  match i, hi with
  | 1, _ =>
    have h : denseOf fixB = A := by simpa using h
    subst h
    intro a b ha hb
    change a < 1 at ha
    change b < 1 at hb
    interval_cases a
    interval_cases b
    have e2 : (denseOf fixB).f [0, 0, 0] = 1 := rfl
    have e3 : (denseOf fixB).f [0, 1, 0] = 0 := rfl
    show ∑ s ∈ range 2, ∑ j ∈ range 1, (denseOf fixB).f [0, s, j] * star ((denseOf fixB).f [0, s, j]) = _
    simp [sum_range_succ, e2, e3]
  | i + 2, _ => simp at h

/-- The hypotheses of `C103_cold_partial` are met, with any number of sweeps, any cutoff and any largest bond: the start from charge 2 makes
its state, the run returns, and the configuration of charge 0 never appears. -/
example : ∃ fac : Blk ℝ → Blk ℝ × Blk ℝ × Blk ℝ, ∀ (late : Bool) (dflt : Res (BT Int ℝ)) (above : ℝ → ℝ → Bool) (zeroNorm : List (BT Int ℝ) → Bool)
    (moveOc : List (BT Int ℝ) → Nat → Nat → Res (List (BT Int ℝ) × Nat)) (maxIt : Nat), 1 ≤ maxIt → ∀ (cutoff : ℝ), 0 ≤ cutoff → ∀ maxB, ∃ e fin log,
      coldDmrg RM.zdist (fun _ _ => 0) (fun _ _ _ _ => 1) late fac (1/1000) cutoff 1 maxB dflt above zeroNorm moveOc 100000 maxIt fixWs 2 = .ok (e, fin, 0, log) ∧
      (∃ n, Event.iteration n e fin ∈ log) ∧ ∀ s, SeenBy fin log s → amp (s.map denseOf) [0, 1] 0 0 = 0 := by
  obtain ⟨fac, hfac⟩ := LA.denseSvd_exists ℝ
  refine ⟨fac, fun late dflt above zeroNorm moveOc maxIt hmax cutoff hcut maxB => ?_⟩
  have hr := fix_run hfac (1/1000) cutoff (by norm_num) (by norm_num) hcut 1 maxB le_rfl late (DM.tours 2 0 maxIt) fixS (DM.tours_two_zero maxIt) fixStart
  obtain ⟨e, fin, log, c1, ⟨n, c2, _⟩, _⟩ := C97_run_partial late fixWs fixS hfac (1/1000) cutoff (by norm_num) (by norm_num) hcut 1 maxB (.inl le_rfl) fixFit
    fix_conserving.positive fixStart.closed fix_conserving.closed (.inr fix_conserving.edges) fix_conserving.neutral fix_herm (by simp) (by simp) 0 (by simp)
    (DM.canonical_semi fix_canonical) fixStart.norm dflt above zeroNorm moveOc 100000 maxIt hmax hr
  have hcold : coldDmrg RM.zdist (fun _ _ => 0) (fun _ _ _ _ => 1) late fac (1/1000) cutoff 1 maxB dflt above zeroNorm moveOc 100000 maxIt fixWs 2
      = .ok (e, fin, 0, log) := by
    unfold coldDmrg
    rw [fix_random]
    exact c1
  refine ⟨e, fin, log, hcold, ⟨n, c2⟩, fun s hs => ?_⟩
  obtain ⟨h1, h2⟩ := C103_cold_partial RM.zdist RM.zdist_isDist (fun _ _ => 0) (fun _ _ _ _ => 1) late fixWs hfac (1/1000) cutoff 1 maxB one_pos (by norm_num)
    fix_conserving (by simp) (by simp) dflt above zeroNorm moveOc 100000 maxIt 2 (by
      intro sites hsites
      rw [fix_random] at hsites
      cases hsites
      exact DM.RunAll.mono _ (fun o s h => LastKept.countable hfac (fun t ht => Tidy.lastKept (h.tidy t ht)) h.few) _ _ hr) hcold s hs
  have hl : s.length = 2 := by simpa [physDims] using congrArg List.length h1
  by_contra h
  exact absurd (h2 [0, 1] (by simp [hl]) h) (by decide)

end QuantiT.BN
