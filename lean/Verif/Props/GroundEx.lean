import Verif.Props.Ground
import Verif.Props.ColdEx
/-
A case that meets the hypotheses of C112: two spins that prefer to be parallel, started from one up and one down.
-/
namespace QuantiT
namespace DM
open Finset Spec MP Matrix HM

/-- `1 - 2 P` with `P` the exchange of the two sites. -/
theorem pair_entry {Ws : List (Blk ℝ)} (hO : Operator 2 2 (heisenbergH 4 2) Ws) (a b c d : Nat) (ha : a < 2) (hb : b < 2) (hc : c < 2) (hd : d < 2) :
    opEntry Ws [a, b] [c, d] 0 0 = (if a = c ∧ b = d then 1 else 0) - 2 * if a = d ∧ b = c then 1 else 0 := by
  have h := opEntry_ofFn (L := 2) (d := 2) Ws ![⟨a, ha⟩, ⟨b, hb⟩] ![⟨c, hc⟩, ⟨d, hd⟩]
  have e1 : (List.ofFn fun i => ((![⟨a, ha⟩, ⟨b, hb⟩] : Fin 2 → Fin 2) i).val) = [a, b] := by simp [List.ofFn_succ]
  have e2 : (List.ofFn fun i => ((![⟨c, hc⟩, ⟨d, hd⟩] : Fin 2 → Fin 2) i).val) = [c, d] := by simp [List.ofFn_succ]
  rw [e1, e2, hO.matrix] at h
  rw [h]
  unfold heisenbergH
  rw [show range (2 - 1) = {0} from rfl, sum_singleton, Matrix.smul_apply, pair_exchange (by omega)]
  interval_cases a <;> interval_cases b <;> interval_cases c <;> interval_cases d <;>
    simp [exchange, funext_iff, Fin.forall_fin_two] <;> norm_num

/-- One site up, one down. -/
def pairStart : List (Blk ℝ) :=
  [⟨[1, 2, 1], fun o => if o.getD 1 0 = 0 then 1 else 0⟩, ⟨[1, 2, 1], fun o => if o.getD 1 0 = 1 then 1 else 0⟩]

theorem pair_energy {Ws s : List (Blk ℝ)} (hO : Operator 2 2 (heisenbergH 4 2) Ws) (h : phys s = [2, 2]) :
    energy Ws s = normSq s - 2 * (amp s [0, 0] 0 0 ^ 2 + amp s [1, 1] 0 0 ^ 2 + 2 * amp s [0, 1] 0 0 * amp s [1, 0] 0 0) := by
  rw [flip_norm h]
  unfold energy sandwich
  rw [h, sum_two_two]
  simp [sum_two_two, pair_entry hO]
  ring

theorem pair_bound {Ws : List (Blk ℝ)} (hO : Operator 2 2 (heisenbergH 4 2) Ws) : BoundedBelow Ws [2, 2] (-1) := by
  have := boundedBelow_of hO.matrix (heisenbergH_bound (𝕜 := ℝ) 4 2 (by omega))
  norm_num at this
  exact this

theorem pair_herm' {Ws : List (Blk ℝ)} (hO : Operator 2 2 (heisenbergH 4 2) Ws) : HermitianOp Ws [2, 2] :=
  hermitianOp_of hO.matrix hO.herm

/-- The residual is `(3 - e) (1 + e)`. -/
theorem pair_residual {Ws s : List (Blk ℝ)} (hO : Operator 2 2 (heisenbergH 4 2) Ws) (hF : Fit s Ws s) (hc : Closed s) (hp : phys s = [2, 2])
    (hn : normSq s = 1) {ψ ψ' : Blk ℝ} (h : PairTensors Ws s 0 ψ ψ') : ψ.dims = [1, 2, 2, 1] ∧
      ∑ o ∈ configs ψ.dims, ‖ψ'.f o - (energy Ws s : ℝ) * ψ.f o‖ ^ 2 = (3 - energy Ws s) * (1 + energy Ws s) := by
  have h2 : s.length = 2 := by have := congrArg List.length hp; simpa [phys] using this
  obtain ⟨d, e, h1, hψd, hf⟩ := two_site_entries hF hc hO.closed h2 h
  rw [hp] at h1
  obtain ⟨rfl, rfl⟩ : 2 = d ∧ 2 = e := by simpa using h1
  refine ⟨hψd, ?_⟩
  rw [hψd]
  have hcf : configs [1, 2, 2, 1] = {[0, 0, 0, 0], [0, 0, 1, 0], [0, 1, 0, 0], [0, 1, 1, 0]} := by decide
  rw [hcf, sum_insert (by decide), sum_insert (by decide), sum_insert (by decide), sum_singleton]
  rw [(hf 0 0 (by omega) (by omega)).1, (hf 0 0 (by omega) (by omega)).2, (hf 0 1 (by omega) (by omega)).1,
    (hf 0 1 (by omega) (by omega)).2, (hf 1 0 (by omega) (by omega)).1, (hf 1 0 (by omega) (by omega)).2,
    (hf 1 1 (by omega) (by omega)).1, (hf 1 1 (by omega) (by omega)).2]
  rw [hp]
  have he := pair_energy hO hp
  have hn' := flip_norm hp
  rw [hn] at hn' he
  simp [sum_two_two, pair_entry hO]
  generalize energy Ws s = E at *
  generalize amp s [0, 0] 0 0 = p at *
  generalize amp s [0, 1] 0 0 = q at *
  generalize amp s [1, 0] 0 0 = r at *
  generalize amp s [1, 1] 0 0 = t at *
  linear_combination (-(E ^ 2) - 2 * E - 5 + 4 * E) * hn' + (2 * E - 2) * he

theorem pair_regular {Ws s : List (Blk ℝ)} (hO : Operator 2 2 (heisenbergH 4 2) Ws) (hF : Fit s Ws s) (hc : Closed s) (hp : phys s = [2, 2])
    (hn : normSq s = 1) (he : energy Ws s = 1 ∨ energy Ws s = -1) : Regular Ws s 0 := by
  intro ψ ψ' h
  obtain ⟨hd, hr⟩ := pair_residual hO hF hc hp hn h
  rcases he with he | he
  · left
    unfold Improvable
    rw [he] at hr ⊢
    refine le_of_le_of_eq ?_ hr.symm
    norm_num
  · right
    rw [he] at hr ⊢
    refine ⟨by norm_num, fun o ho => ?_⟩
    rw [show ((3 : ℝ) - (-1)) * (1 + -1) = 0 by norm_num, sum_eq_zero_iff_of_nonneg (fun _ _ => by positivity)] at hr
    have := hr o ho
    have h0 : ψ'.f o - (-1 : ℝ) * ψ.f o = 0 := by simpa using this
    simp at h0 ⊢
    linarith

theorem pairStart_start : Start 2 2 0 pairStart := by
  refine ⟨⟨by simp [pairStart], fun i s s' h1 h2 => ?_⟩, ⟨rfl, rfl⟩, rfl, by omega, ⟨fun i A _ h => by omega, ?_⟩, ?_⟩
  · match i, h1, h2 with
    | 0, h1, h2 => cases h1; cases h2; rfl
    | 1, h1, h2 => cases h2
    | _ + 2, h1, h2 => cases h1
  · intro i A h hi
    match i, hi with
    | 1, _ =>
      simp [pairStart] at h
      subst h
      intro a b ha hb
      simp at ha hb
      subst ha hb
      simp
    | i + 2, _ => simp [pairStart] at h
  · rw [← normSq_eq rfl, flip_norm rfl]
    simp [amp, pairStart]

theorem pairStart_norm : normSq pairStart = 1 := by
  rw [flip_norm rfl]
  simp [amp, pairStart]

theorem pairStart_energy {Ws : List (Blk ℝ)} (hO : Operator 2 2 (heisenbergH 4 2) Ws) : energy Ws pairStart = 1 := by
  rw [pair_energy hO rfl, pairStart_norm]
  simp [amp, pairStart]

/-- The span of the starting state and its product with the Hamiltonian has the ground state. -/
theorem pair_trial {Ws : List (Blk ℝ)} (hO : Operator 2 2 (heisenbergH 4 2) Ws) (E : ℝ)
    (a10 : ∀ ψ ψ', PairTensors Ws pairStart 0 ψ ψ' → ∀ (x y : ℝ) (θ : Blk ℝ), θ.dims = ψ.dims →
      (∀ o ∈ configs ψ.dims, θ.f o = x * ψ.f o + y * ψ'.f o) →
      E * ∑ σ ∈ configs (phys pairStart), ‖pairAmp (pairStart.take 0) θ (pairStart.drop (0 + 2)) σ 0 0‖ ^ 2
        ≤ RCLike.re (pairSandwich (pairStart.take 0) θ θ (pairStart.drop (0 + 2)) Ws (phys pairStart) 0 0 0 0 0 0)) : E ≤ -1 := by
  have hs := pairStart_start
  have hF := hs.fit hO
  obtain ⟨W1, W2, rfl⟩ := List.length_eq_two.1 hO.len
  obtain ⟨Le, Re, H2, n, i, m, j, n', T, hA, hB, hp, hp0, h1, h2, h3, hT, hE, hN⟩ :=
    pair_setup [] [] [] [] pairStart[0] pairStart[1] W1 W2 hF rfl hs.closed hO.closed
      (fun X h => by cases h) (fun X h => by cases h)
  obtain ⟨ψ, hψ, hψd⟩ : ∃ ψ, dot1 pairStart[0] pairStart[1] 2 0 = .ok ψ ∧ ψ.dims = [n, i, j, n'] := by
    refine ⟨_, by simp [dot1, hA, hB]; rfl, by simp⟩
  obtain ⟨ψ', k1, k2, k3⟩ := hT ψ hψd
  have hpt : PairTensors [W1, W2] pairStart 0 ψ ψ' :=
    ⟨pairStart[0], pairStart[1], W1, W2, Le, Re, H2, rfl, rfl, rfl, rfl, hψ, h1, h2, h3, k1⟩
  obtain ⟨d, e, q1, hd, hf⟩ := two_site_entries hF hs.closed hO.closed rfl hpt
  obtain ⟨rfl, rfl⟩ : 2 = d ∧ 2 = e := by
    rw [show phys pairStart = [2, 2] from rfl] at q1
    simpa using q1
  have hup := a10 ψ ψ' hpt 3 (-1) ⟨ψ.dims, fun o => 3 * ψ.f o - ψ'.f o⟩ rfl (fun o _ => by show _ - _ = _; ring)
  rw [show phys pairStart = [2, 2] from rfl] at hup
  have hpa : ∀ a b, a < 2 → b < 2 → pairAmp (pairStart.take 0) ⟨ψ.dims, fun o => 3 * ψ.f o - ψ'.f o⟩ (pairStart.drop (0 + 2)) [a, b] 0 0
      = if a = b then 0 else 2 := by
    intro a b ha hb
    have h1 := hf a b ha hb
    have : pairAmp (pairStart.take 0) ⟨ψ.dims, fun o => 3 * ψ.f o - ψ'.f o⟩ (pairStart.drop (0 + 2)) [a, b] 0 0
        = 3 * ψ.f [0, a, b, 0] - ψ'.f [0, a, b, 0] := by
      simp [pairAmp, hd, amp, pairStart]
    rw [this, h1.1, h1.2, show phys pairStart = [2, 2] from rfl]
    interval_cases a <;> interval_cases b <;> simp [sum_two_two, pair_entry hO, amp, pairStart] <;> norm_num
  unfold pairSandwich at hup
  simp only [sum_two_two, hpa 0 0 (by omega) (by omega), hpa 0 1 (by omega) (by omega), hpa 1 0 (by omega) (by omega),
    hpa 1 1 (by omega) (by omega)] at hup
  simp [pair_entry hO] at hup
  norm_num at hup
  linarith

/-- The first update finds the ground state. -/
theorem pair_first {Ws : List (Blk ℝ)} (hO : Operator 2 2 (heisenbergH 4 2) Ws) (svd : Blk ℝ → Blk ℝ × Blk ℝ × Blk ℝ)
    (hsvd : ∀ X l s t r, X.dims = [l, s, t, r] → ∃ k, SvdPair X (svd X).1 (svd X).2.1 (svd X).2.2 l s t r k) (fwd : Bool) :
    ∃ s', (blkDmrg Ws svd).fresh 0 fwd pairStart = .ok (-1, s') ∧ Fit s' Ws s' ∧ Closed s' ∧ phys s' = [2, 2] ∧
      normSq s' = 1 ∧ energy Ws s' = -1 := by
  have hs := pairStart_start
  have hF := hs.fit hO
  obtain ⟨E, s', a1, a2, a3, a4, a5, a6, a7, a8, a9, a10⟩ := C73_update_partial Ws pairStart svd 0 fwd hsvd hF hs.closed hO.closed
    (pair_herm' hO) (by simp [pairStart]) ⟨fun i A _ h => by omega, fun i A h hi => by
      match i, hi with
      | i + 2, _ => simp [pairStart] at h⟩ pairStart_norm
    (pair_regular hO hF hs.closed rfl pairStart_norm (Or.inl (pairStart_energy hO)))
  have hlo : -1 ≤ E := by rw [a7]; exact C73_bound Ws s' (-1) (by rw [a4]; exact pair_bound hO) a6
  have hup := pair_trial hO E a10
  have hE1 : E = -1 := by linarith
  subst hE1
  exact ⟨s', a1, a2, a3, a4, a6, a7.symm⟩

/-- From the ground state on, every update is regular. -/
theorem pair_run {Ws : List (Blk ℝ)} (hO : Operator 2 2 (heisenbergH 4 2) Ws) (svd : Blk ℝ → Blk ℝ × Blk ℝ × Blk ℝ)
    (hsvd : ∀ X l s t r, X.dims = [l, s, t, r] → ∃ k, SvdPair X (svd X).1 (svd X).2.1 (svd X).2.2 l s t r k) :
    ∀ (l : List (Nat × Bool)) (s : List (Blk ℝ)), (∀ p ∈ l, p.1 = 0) → Fit s Ws s → Closed s → phys s = [2, 2] →
      normSq s = 1 → energy Ws s = -1 → RegularRun (blkDmrg Ws svd) Ws l s
  | [], _, _, _, _, _, _, _ => trivial
  | (o, f) :: l, s, hl, hF, hc, hp, hn, he => by
    have ho : o = 0 := hl (o, f) (by simp)
    subst ho
    have hlen : s.length = 2 := by have := congrArg List.length hp; simpa [phys] using this
    have hreg := pair_regular hO hF hc hp hn (Or.inr he)
    refine ⟨hreg, fun r hr => ?_⟩
    obtain ⟨E, s', a1, a2, a3, a4, a5, a6, a7, a8, _⟩ := C73_update_partial Ws s svd 0 f hsvd hF hc hO.closed
      (by rw [hp]; exact pair_herm' hO) (by omega) ⟨fun i A _ h => by omega, fun i A h hi => by
        have := (List.getElem?_eq_some_iff.1 h).1
        omega⟩ hn hreg
    rw [a1] at hr
    cases hr
    have hlo := C73_bound Ws s' (-1) (by rw [a4, hp]; exact pair_bound hO) a6
    exact pair_run hO svd hsvd l s' (fun p hp => hl p (by simp [hp])) a2 a3 (a4.trans hp) a6 (by linarith)

/-- The hypotheses of C112 are met, with any number of sweeps: the search on two spins with `J = 4`, started from one up and one down, returns
an energy between `-1`, the lowest there is, and `1`. -/
example : ∃ (Ws : List (Blk ℝ)) (svd : Blk ℝ → Blk ℝ × Blk ℝ × Blk ℝ) (svd1 : Blk ℝ → Nat → Blk ℝ × Blk ℝ × Blk ℝ),
    heisenberg (4 : ℝ) 2 = .ok Ws ∧ ∀ (above : ℝ → ℝ → Bool) (maxIt : Nat), 1 ≤ maxIt →
    ∃ e fin oc log, dmrg true (blkDmrg Ws svd) (.ok (onesLike [1, 1, 1])) above tooSmall (moveOcDense star svd1) 100000 maxIt 2
      pairStart 0 = .ok (e, fin, oc, log) ∧ Ground 2 2 (heisenbergH 4 2) pairStart e fin log ∧ -1 ≤ e ∧ e ≤ 1 := by
  obtain ⟨svd, hsvd⟩ := svdPair_exists ℝ
  obtain ⟨svd1, hsvd1⟩ := svdOk_exists ℝ
  obtain ⟨Ws, h1, hO⟩ := heisenberg_operator (𝕜 := ℝ) 4 2 (by omega)
  obtain ⟨Ws', h1', hall⟩ := C112_heisenberg_partial (𝕜 := ℝ) 4 2 (by omega) (by norm_num)
  rw [h1] at h1'
  cases h1'
  refine ⟨Ws, svd, svd1, h1, fun above maxIt hmax => ?_⟩
  have hs := pairStart_start
  have hF := hs.fit hO
  obtain ⟨s1, b1, b2, b3, b4, b5, b6⟩ := pair_first hO svd hsvd false
  have hreg : RegularRun (blkDmrg Ws svd) Ws (tours 2 0 maxIt) pairStart := by
    obtain ⟨k, rfl⟩ : ∃ k, maxIt = k + 1 := ⟨maxIt - 1, by omega⟩
    rw [tours_succ]
    refine ⟨pair_regular hO hF hs.closed rfl pairStart_norm (Or.inl (pairStart_energy hO)), fun r hr => ?_⟩
    rw [b1] at hr
    cases hr
    refine pair_run hO svd hsvd _ s1 ?_ b2 b3 b4 b5 b6
    intro p hp
    have : ∀ n, ∀ p ∈ tours 2 0 n, p.1 = 0 := by
      intro n p hp
      unfold tours at hp
      rw [List.mem_flatten] at hp
      obtain ⟨l, hl, hpl⟩ := hp
      rw [(List.mem_replicate.1 hl).2] at hpl
      simp [tour] at hpl
      rw [hpl]
    rcases List.mem_cons.1 hp with h | h
    · rw [h]
    · exact this k p h
  obtain ⟨e, fin, oc', log, c1, c2, c3⟩ := hall svd svd1 hsvd hsvd1 pairStart 0 hs (.ok (onesLike [1, 1, 1])) above 100000 maxIt hmax hreg
  refine ⟨e, fin, oc', log, c1, c2, by norm_num at c3; exact c3, ?_⟩
  have hlow := c2.lower
  rw [← hO.matrix, ← energy_eq rfl, pairStart_energy hO] at hlow
  exact hlow

/-! ### From a random state -/

/-- Numbers to start from: both spins up, of norm two. -/
def upRnd (i : Nat) (o : List Nat) : ℝ := if o.getD 1 0 = 0 then (if i = 0 then 2 else 1) else 0

def upStart : List (Blk ℝ) := [⟨[1, 2, 1], upRnd 0⟩, ⟨[1, 2, 1], upRnd 1⟩]

theorem upStart_random {Ws : List (Blk ℝ)} (hO : Operator 2 2 (heisenbergH 4 2) Ws) : randomFor 1 Ws upRnd = .ok upStart := by
  obtain ⟨sites, h1, h2, h3⟩ := C96_random 1 le_rfl Ws upRnd (by rintro rfl; simpa using hO.len) fun W hW => hO.linked.1 _ (List.mem_map_of_mem hW)
  rw [h1]
  have hcols := hO.cols
  obtain ⟨W1, W2, rfl⟩ := List.length_eq_two.1 hO.len
  obtain ⟨c1, c2⟩ : W1.dims.getD 3 0 = 2 ∧ W2.dims.getD 3 0 = 2 := by simpa [List.replicate] using hcols
  obtain ⟨A, B, rfl⟩ := List.length_eq_two.1 h2
  have a1 := h3 0 W1 rfl
  have a2 := h3 1 W2 rfl
  rw [c1] at a1
  rw [c2] at a2
  cases a1
  cases a2
  rfl

theorem upStart_fit {Ws : List (Blk ℝ)} (hO : Operator 2 2 (heisenbergH 4 2) Ws) : Fit upStart Ws upStart ∧ Closed upStart := by
  have hl : Linked 3 (upStart.map Blk.dims) := by
    refine ⟨by simp [upStart], fun i s s' h1 h2 => ?_⟩
    match i, h1, h2 with
    | 0, h1, h2 => cases h1; cases h2; rfl
    | 1, h1, h2 => cases h2
    | _ + 2, h1, h2 => cases h1
  exact ⟨⟨hl, hO.linked, hl, hO.cols.symm, hO.rows.symm⟩, rfl, rfl⟩

theorem upStart_amp (a b : Nat) : amp upStart [a, b] 0 0 = (if a = 0 then 2 else 0) * (if b = 0 then 1 else 0) := by
  simp [amp, upStart, upRnd]

theorem pair_above {Ws : List (Blk ℝ)} (hO : Operator 2 2 (heisenbergH 4 2) Ws) : BoundedAbove Ws [2, 2] 3 := by
  have := boundedAbove_of hO.matrix (heisenbergH_above (𝕜 := ℝ) 4 2 (by omega))
  norm_num at this
  exact this

variable {fac : Blk ℝ → Blk ℝ × Blk ℝ × Blk ℝ}

/-- From a ground state an update finds a ground state. -/
theorem pair_cut {Ws : List (Blk ℝ)} (hO : Operator 2 2 (heisenbergH 4 2) Ws) (hfac : DenseSvd fac) (fwd : Bool) {s : List (Blk ℝ)}
    (hF : Fit s Ws s) (hc : Closed s) (hp : phys s = [2, 2]) (hn : normSq s = 1) (hs : energy Ws s = -1) :
    CutAdmissible Ws 0 s ∧ ∃ s', (cutDmrg Ws fac 0 1 3).fresh 0 fwd s = .ok (-1, s') ∧ Fit s' Ws s' ∧ Closed s' ∧
      phys s' = [2, 2] ∧ normSq s' = 1 ∧ energy Ws s' = -1 := by
  have hlen : s.length = 2 := by have := congrArg List.length hp; simpa [phys] using this
  have hreg : Regular Ws s 0 := pair_regular hO hF hc hp hn (.inr hs)
  obtain ⟨A, B, rfl⟩ := List.length_eq_two.1 hlen
  obtain ⟨n, i, m, e1⟩ := List.length_eq_three.1 (hF.ket.1 A.dims (by simp))
  obtain ⟨m', j, n', e2⟩ := List.length_eq_three.1 (hF.ket.1 B.dims (by simp))
  have e3 : n = 1 := by have := hc.1; simpa [leftEnd, e1] using this
  have e4 : n' = 1 := by have := hc.2; simpa [rightEnd, e2] using this
  obtain ⟨e5, e6⟩ : i = 2 ∧ j = 2 := by simpa [phys, e1, e2] using hp
  have hsz : ∀ A' B', [A, B][0]? = some A' → [A, B][0 + 1]? = some B' → (A'.dims.take 2 ++ B'.dims.drop 1).prod < 2 ^ 63 := by
    intro A' B' g1 g2
    cases g1; cases g2
    rw [e1, e2, e3, e4, e5, e6]
    norm_num
  refine ⟨⟨hreg, hsz⟩, ?_⟩
  obtain ⟨E, s', v, w, a1, a2, a3, a4, a5, a6, a7, a8, a9, _, b1, b2⟩ := C86_update_partial Ws [A, B] hfac 0 fwd 0 le_rfl 1 3 (.inl le_rfl) hF hc
    hO.closed (by rw [hp]; exact pair_herm' hO) (by simp) ⟨fun i A _ h => by omega, fun i A h hi => by
      have := (List.getElem?_eq_some_iff.1 h).1
      simp at this
      omega⟩ hn hreg hsz
  rw [hp] at a4 a7 a8 b2
  have hb := (a8.needed A B rfl rfl).1
  rw [e1, e2, e3, e4, e5, e6] at hb
  simp at hb
  have hw : w = 0 := le_antisymm (by have := a8.small (by omega); simpa using this) a8.lost.1
  have hlo := (vec_bounds (Ws := Ws) a8.norm).1 _ (pair_bound hO)
  rw [← a7] at hlo
  have h1 := b2 _ _ (pair_bound hO) (pair_above hO)
  rw [hw] at h1
  simp at h1
  rw [hs] at a9
  have hE1 : E = -1 := le_antisymm a9 hlo
  subst hE1
  exact ⟨s', a1, a2, a3, a4, a6, by linarith⟩

/-- The first update finds a multiple of the start, and so a normalised ground state. -/
theorem up_first {Ws : List (Blk ℝ)} (hO : Operator 2 2 (heisenbergH 4 2) Ws) (hfac : DenseSvd fac) (fwd : Bool) :
    Ready Ws 0 upStart ∧ ∃ E s', (cutDmrg Ws fac 0 1 3).fresh 0 fwd upStart = .ok (E, s') ∧ Fit s' Ws s' ∧ Closed s' ∧
      phys s' = [2, 2] ∧ normSq s' = 1 ∧ energy Ws s' = -1 := by
  obtain ⟨hF, hc⟩ := upStart_fit hO
  have hcan : PairCanonical upStart 0 := ⟨fun i A _ h => by omega, fun i A h hi => by
    have := (List.getElem?_eq_some_iff.1 h).1
    simp [upStart] at this
    omega⟩
  have hsz : ∀ A B, upStart[0]? = some A → upStart[0 + 1]? = some B → (A.dims.take 2 ++ B.dims.drop 1).prod < 2 ^ 63 := by
    intro A B h1 h2
    cases h1; cases h2
    norm_num
  obtain ⟨A, B, W1, W2, Le, Re, H2, ψ, ψ', E, θ, n, i, m, j, n', T, gA, gB, gW1, gW2, h1, h2, h3, hψ, hA, hB, hψd, hpt, k3, t1, t2, u1, _, huniq⟩ :=
    cold_found Ws upStart 0 hF hc hO.closed (by simp [upStart])
  cases gA; cases gB
  obtain ⟨rfl, rfl, rfl, _⟩ : 1 = n ∧ 2 = i ∧ 1 = m ∧ True := by simpa using hA
  obtain ⟨rfl, rfl, _⟩ : 2 = j ∧ 1 = n' ∧ True := by simpa using hB
  obtain ⟨d, e, q1, hd, hf⟩ := two_site_entries hF hc hO.closed rfl hpt
  obtain ⟨rfl, rfl⟩ : 2 = d ∧ 2 = e := by
    rw [show phys upStart = [2, 2] from rfl] at q1
    simpa using q1
  have hcf : ∀ q ∈ configs [1, 2, 2, 1], ∃ a b, a < 2 ∧ b < 2 ∧ q = [0, a, b, 0] := by
    have : configs [1, 2, 2, 1] = {[0, 0, 0, 0], [0, 0, 1, 0], [0, 1, 0, 0], [0, 1, 1, 0]} := by decide
    intro q hq
    rw [this] at hq
    simp at hq
    rcases hq with rfl | rfl | rfl | rfl
    exacts [⟨0, 0, by simp⟩, ⟨0, 1, by simp⟩, ⟨1, 0, by simp⟩, ⟨1, 1, by simp⟩]
  have hTψ : T (toV [1, 2, 2, 1] ψ) = (-1 : ℝ) • toV [1, 2, 2, 1] ψ := by
    rw [← k3]
    ext q
    obtain ⟨a, b, ha, hb, hq⟩ := hcf q.1 q.2
    show ψ'.f q.1 = -1 * ψ.f q.1
    rw [hq, (hf a b ha hb).1, (hf a b ha hb).2, show phys upStart = [2, 2] from rfl, sum_two_two]
    interval_cases a <;> interval_cases b <;> simp [pair_entry hO, upStart_amp] <;> norm_num
  have hNψ : inner ℝ (toV [1, 2, 2, 1] ψ) (toV [1, 2, 2, 1] ψ) = 4 := by
    rw [inner_toV]
    have hcf : configs [1, 2, 2, 1] = {[0, 0, 0, 0], [0, 0, 1, 0], [0, 1, 0, 0], [0, 1, 1, 0]} := by decide
    rw [hcf, sum_insert (by decide), sum_insert (by decide), sum_insert (by decide), sum_singleton]
    rw [(hf 0 0 (by omega) (by omega)).1, (hf 0 1 (by omega) (by omega)).1, (hf 1 0 (by omega) (by omega)).1, (hf 1 1 (by omega) (by omega)).1]
    simp only [upStart_amp]
    norm_num
  obtain ⟨E', κ, v1, v2, _⟩ := lanczos_stationary T _ (-1) 4 hTψ hNψ (by
    apply Real.le_sqrt_of_sq_le
    norm_num)
  rw [u1] at v1
  have v3 : toV [1, 2, 2, 1] θ = κ • toV [1, 2, 2, 1] ψ := by
    have := Except.ok.inj v1
    exact (Prod.ext_iff.1 this).2
  have hθ : ∀ q ∈ configs [1, 2, 2, 1], θ.f q = κ * ψ.f q := fun q hq => congrArg (fun x : Vec ℝ [1, 2, 2, 1] => x ⟨q, hq⟩) v3
  have halive : ∀ E θ, Found Ws upStart 0 E θ → ∃ q ∈ configs θ.dims, θ.f q ≠ 0 := by
    intro E1 θ1 h1
    obtain ⟨rfl, rfl⟩ := huniq E1 θ1 h1
    refine ⟨[0, 0, 0, 0], by rw [t2]; decide, ?_⟩
    rw [hθ _ (by decide), (hf 0 0 (by omega) (by omega)).1, upStart_amp]
    simp [v2]
  have hn4 : normSq upStart = 4 := by
    rw [flip_norm rfl]
    simp only [upStart_amp]
    norm_num
  refine ⟨⟨hsz, fun _ h => by rw [hn4] at h; norm_num at h, fun _ => halive⟩, ?_⟩
  obtain ⟨E2, θ2, A', B', c1, c2, c3, c4, c5, c6, c7, c8, c9, _, d1⟩ := cold_update Ws upStart hfac 0 fwd 0 le_rfl 1 3 le_rfl hF hc hO.closed
    (by simp [upStart]) halive hsz
  obtain ⟨rfl, rfl⟩ := huniq E2 θ2 c1
  obtain ⟨d2, d3⟩ := d1 hcan
  obtain ⟨z, hz⟩ := d3 ⟨fun e => κ * (if e.getD 1 0 = 0 then 2 else 0), fun e => if e.getD 0 0 = 0 then 1 else 0, fun q hq => by
    rw [t2] at hq
    rw [hθ q hq]
    obtain ⟨a, b, ha, hb, rfl⟩ := hcf q hq
    rw [(hf a b ha hb).1, upStart_amp]
    simp only [List.take_succ_cons, List.take_zero, List.drop_succ_cons, List.drop_zero, List.getD_cons_zero, List.getD_cons_succ]
    ring⟩
  rw [show phys upStart = [2, 2] from rfl] at hz c5
  have hz' : ∀ a b, a < 2 → b < 2 → κ * ((if a = 0 then 2 else 0) * (if b = 0 then 1 else 0)) = z * amp (withPair upStart 0 A' B') [a, b] 0 0 := by
    intro a b ha hb
    rw [← hz [a, b] (by rw [mem_configs]; unfold InRange; simp [ha, hb]), ← upStart_amp, ← (hf a b ha hb).1, ← hθ _ (by
      rw [mem_configs]; unfold InRange; simp [ha, hb])]
    simp [pairAmp, t2, amp, upStart]
  have z0 : z ≠ 0 := by
    rintro rfl
    have := hz' 0 0 (by omega) (by omega)
    simp at this
    exact v2 this
  refine ⟨_, _, c2, c3, c4, c5, d2, ?_⟩
  rw [pair_energy hO c5, d2]
  rw [flip_norm c5] at d2
  have e2 := hz' 0 1 (by omega) (by omega)
  have e3 := hz' 1 0 (by omega) (by omega)
  have e4 := hz' 1 1 (by omega) (by omega)
  simp [z0] at e2 e3 e4
  rw [e2, e3, e4] at d2 ⊢
  linarith

/-- The hypotheses of the theorems on the search from a random state are met, with any number of sweeps. -/
example : ∃ (Ws : List (Blk ℝ)) (fac : Blk ℝ → Blk ℝ × Blk ℝ × Blk ℝ), heisenberg (4 : ℝ) 2 = .ok Ws ∧ ∀ (above : ℝ → ℝ → Bool) (maxIt : Nat), 1 ≤ maxIt →
    ∃ e fin oc log, dmrgRandom Ws fac 0 1 3 (.ok (onesLike [1, 1, 1])) above tooSmall (moveOcDense star (svdOf fac)) 100000 maxIt
      upRnd = .ok (e, fin, oc, log) ∧ Cold 2 2 (heisenbergH 4 2) 0 1 3 e fin log := by
  obtain ⟨fac, hfac⟩ := LA.denseSvd_exists ℝ
  obtain ⟨Ws, h1, hO⟩ := heisenberg_operator (𝕜 := ℝ) 4 2 (by omega)
  obtain ⟨Ws', h1', hall⟩ := C112_heisenberg_cold_partial (𝕜 := ℝ) 4 2 (by omega) (by norm_num)
  rw [h1] at h1'
  cases h1'
  refine ⟨Ws, fac, h1, fun above maxIt hmax => ?_⟩
  obtain ⟨sites, g1, g2, g3⟩ := hall fac (svdOf fac) hfac (svdOk_dense hfac) 0 1 3 le_rfl le_rfl (.ok (onesLike [1, 1, 1])) above 100000 maxIt upRnd hmax
  rw [upStart_random hO] at g1
  cases g1
  have hn4 : normSq upStart = 4 := by
    rw [flip_norm rfl]
    simp only [upStart_amp]
    norm_num
  refine g3 (by rw [hn4]; norm_num) ?_
  have hrun : ∀ (l : List (Nat × Bool)) (s : List (Blk ℝ)), (∀ p ∈ l, p.1 = 0) → Fit s Ws s → Closed s → phys s = [2, 2] →
      normSq s = 1 → energy Ws s = -1 → RunAll (cutDmrg Ws fac 0 1 3) (Ready Ws) l s := by
    intro l
    induction l with
    | nil => intros; trivial
    | cons p l ih =>
      intro s hl hF hc hp hn he
      obtain ⟨o, f⟩ := p
      have ho : o = 0 := hl (o, f) (by simp)
      subst ho
      obtain ⟨h1, s', h2, h3, h4, h5, h6, h7⟩ := pair_cut hO hfac f hF hc hp hn he
      have hcan : PairCanonical s 0 := ⟨fun i A _ h => by omega, fun i A h hi => by
        have := (List.getElem?_eq_some_iff.1 h).1
        have := congrArg List.length hp
        simp [phys] at this
        omega⟩
      refine ⟨⟨h1.2, fun _ _ => h1.1, fun h => absurd ⟨hcan, hn⟩ h⟩, fun r hr => ?_⟩
      rw [h2] at hr; cases hr
      exact ih s' (fun p hp => hl p (by simp [hp])) h3 h4 h5 h6 h7
  obtain ⟨k, rfl⟩ : ∃ k, maxIt = k + 1 := ⟨maxIt - 1, by omega⟩
  have hz := tours_two_zero (k + 1)
  rw [tours_succ] at hz ⊢
  rw [show tour 2 0 = [(0, false), (0, false)] by simp [tour]] at hz ⊢
  obtain ⟨h1, E, s', h2, h3, h4, h5, h6, h7⟩ := up_first hO hfac false
  refine ⟨h1, fun r hr => ?_⟩
  rw [h2] at hr; cases hr
  exact hrun _ s' (fun p hp => hz p (List.mem_cons_of_mem _ hp)) h3 h4 h5 h6 h7

end DM
end QuantiT
