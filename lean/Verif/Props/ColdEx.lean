import Verif.Props.RandomDense
import Verif.Props.CutEx
/-
A case that meets the hypotheses of C96, and the energy below the spectrum that DMRG reports on three sites.
-/
namespace QuantiT
namespace DM
open Finset Spec MP

/-- What one Lanczos step makes of an eigenvector that is not normalised. -/
theorem lanczos_stationary {V : Type} [NormedAddCommGroup V] [InnerProductSpace ℝ V] (T : V →ₗ[ℝ] V) (ψ : V) (l N : ℝ) (hT : T ψ = l • ψ)
    (hN : inner ℝ ψ ψ = N) (hb : 1e-15 ≤ √(l ^ 2 * (1 - N) ^ 2 * N)) :
    ∃ E κ : ℝ, twoSitesUpdate T ψ = .ok (E, κ • ψ) ∧ κ ≠ 0 ∧
      ∀ x y : ℝ, E * (x ^ 2 + y ^ 2) ≤ l * N * x ^ 2 + 2 * √(l ^ 2 * (1 - N) ^ 2 * N) * x * y + l * y ^ 2 := by
  set b := √(l ^ 2 * (1 - N) ^ 2 * N) with hbd
  have hb0 : 0 < b := lt_of_lt_of_le (by norm_num) hb
  have hb2 : b ^ 2 = l ^ 2 * (1 - N) ^ 2 * N := by
    have h := Real.sqrt_pos.1 (hbd ▸ hb0 : 0 < √(l ^ 2 * (1 - N) ^ 2 * N))
    exact Real.sq_sqrt h.le
  have hpsi : T ψ - (l * N) • ψ = (l * (1 - N)) • ψ := by rw [hT]; module
  have hl : lanczos T ψ = ((b⁻¹ * (l * (1 - N))) • ψ, l * N, l, b) := by
    have h1 : RCLike.re (inner ℝ ψ (T ψ)) = l * N := by rw [hT, inner_smul_right, hN]; rfl
    have h2 : √(RCLike.re (inner ℝ ((l * (1 - N)) • ψ) ((l * (1 - N)) • ψ))) = b := by
      rw [inner_smul_left, inner_smul_right, hN, hbd]
      congr 1
      simp
      ring
    unfold lanczos
    simp only [h1]
    have h3 : ((l * N : ℝ) : ℝ) = l * N := rfl
    rw [show ((RCLike.ofReal (l * N) : ℝ)) = l * N from rfl, hpsi, h2, if_pos hb]
    rw [show ((RCLike.ofReal b⁻¹ : ℝ)) = b⁻¹ from rfl, smul_smul]
    refine Prod.ext rfl (Prod.ext rfl (Prod.ext ?_ rfl))
    show RCLike.re (inner ℝ ((b⁻¹ * (l * (1 - N))) • ψ) (T ((b⁻¹ * (l * (1 - N))) • ψ))) = l
    rw [map_smul, hT, inner_smul_left, inner_smul_right, inner_smul_right, hN]
    simp
    have : b⁻¹ * (l * (1 - N)) * (b⁻¹ * (l * (1 - N)) * (l * N)) = l * (l ^ 2 * (1 - N) ^ 2 * N) / b ^ 2 := by field_simp
    rw [this, ← hb2]
    field_simp
  obtain ⟨E, o, n, h1, h2, h3, h4, h5, _⟩ := C53_lowest (l * N) l b
  refine ⟨E, o + n * (b⁻¹ * (l * (1 - N))), ?_, ?_, h5⟩
  · unfold twoSitesUpdate
    rw [hl]
    simp only [bind, Except.bind]
    rw [h1]
    simp only
    congr 2
    show o • ψ + n • (b⁻¹ * (l * (1 - N))) • ψ = _
    module
  · intro h0
    have hn : n ≠ 0 := by
      rintro rfl
      rw [zero_mul, add_zero] at h0
      rw [h0] at h2
      norm_num at h2
    set μ := b⁻¹ * (l * (1 - N)) with hμ
    have hbμ : b * μ = l * (1 - N) := by rw [hμ]; field_simp
    have ho : o = - (n * μ) := by linarith
    rw [ho] at h3 h4
    have e1 : E = l * N := by
      apply mul_right_cancel₀ hn
      have : b * -(n * μ) = -(n * (b * μ)) := by ring
      rw [this, hbμ] at h4
      linarith
    rw [e1] at h3
    have : b * n = 0 := by linarith
    rcases mul_eq_zero.1 this with h | h
    · exact hb0.ne' h
    · exact hn h

/-! ### Two sites -/

/-- Numbers to start from: the chain is a ground state of `flipOp`, of norm `2√2`. -/
def coldRnd (i : Nat) (o : List Nat) : ℝ := if i = 0 then (if o.getD 1 0 = 0 then 2 else -2) else (if o.getD 1 0 = 0 then 1 else 0)

def coldStart : List (Blk ℝ) := [⟨[1, 2, 1], coldRnd 0⟩, ⟨[1, 2, 1], coldRnd 1⟩]

theorem coldStart_random : randomFor 1 flipOp coldRnd = .ok coldStart := rfl

theorem coldStart_fit : Fit coldStart flipOp coldStart ∧ Closed coldStart := by
  refine random_fit (bond := 1) (rnd := coldRnd) (by simp [flipOp]) flipStart_good.fit.op ?_ rfl ?_
  · intro W hW
    simp [flipOp] at hW
    rcases hW with rfl | rfl <;> rfl
  · intro i W hW
    match i, hW with
    | 0, hW => cases hW; rfl
    | 1, hW => cases hW; rfl
    | _ + 2, hW => cases hW

theorem coldStart_amp (a b : Nat) : amp coldStart [a, b] 0 0 = (if a = 0 then 2 else -2) * (if b = 0 then 1 else 0) := by
  simp [amp, coldStart, coldRnd]

variable {fac : Blk ℝ → Blk ℝ × Blk ℝ × Blk ℝ}

/-- The first update finds a multiple of the start, and so a normalised ground state. -/
theorem cold_first (hfac : DenseSvd fac) (cutoff : ℝ) (hcut : 0 ≤ cutoff) (minB maxB : Nat) (hmin : 1 ≤ minB) (fwd : Bool) :
    Ready flipOp 0 coldStart ∧ ∃ E s', (cutDmrg flipOp fac cutoff minB maxB).fresh 0 fwd coldStart = .ok (E, s') ∧ Fit s' flipOp s' ∧ Closed s' ∧
      phys s' = [2, 2] ∧ normSq s' = 1 ∧ energy flipOp s' = -1 := by
  obtain ⟨hF, hc⟩ := coldStart_fit
  have hcan : PairCanonical coldStart 0 := ⟨fun i A _ h => by omega, fun i A h hi => by
    have := (List.getElem?_eq_some_iff.1 h).1
    simp [coldStart] at this
    omega⟩
  have hsz : ∀ A B, coldStart[0]? = some A → coldStart[0 + 1]? = some B → (A.dims.take 2 ++ B.dims.drop 1).prod < 2 ^ 63 := by
    intro A B h1 h2
    cases h1; cases h2
    norm_num
  obtain ⟨A, B, W1, W2, Le, Re, H2, ψ, ψ', E, θ, n, i, m, j, n', T, gA, gB, gW1, gW2, h1, h2, h3, hψ, hA, hB, hψd, hpt, k3, t1, t2, u1, _, huniq⟩ :=
    cold_found flipOp coldStart 0 hF hc ⟨rfl, rfl⟩ (by simp [coldStart])
  cases gA; cases gB
  obtain ⟨rfl, rfl, rfl, _⟩ : 1 = n ∧ 2 = i ∧ 1 = m ∧ True := by simpa using hA
  obtain ⟨rfl, rfl, _⟩ : 2 = j ∧ 1 = n' ∧ True := by simpa using hB
  obtain ⟨d, e, q1, hd, hf⟩ := two_site_entries hF hc ⟨rfl, rfl⟩ rfl hpt
  obtain ⟨rfl, rfl⟩ : 2 = d ∧ 2 = e := by
    rw [show phys coldStart = [2, 2] from rfl] at q1
    simpa using q1
  have hcf : ∀ q ∈ configs [1, 2, 2, 1], ∃ a b, a < 2 ∧ b < 2 ∧ q = [0, a, b, 0] := by
    have : configs [1, 2, 2, 1] = {[0, 0, 0, 0], [0, 0, 1, 0], [0, 1, 0, 0], [0, 1, 1, 0]} := by decide
    intro q hq
    rw [this] at hq
    simp at hq
    rcases hq with rfl | rfl | rfl | rfl
    exacts [⟨0, 0, by simp⟩, ⟨0, 1, by simp⟩, ⟨1, 0, by simp⟩, ⟨1, 1, by simp⟩]
  have hTψ : T (toV [1, 2, 2, 1] ψ) = (-1 : ℝ) • toV [1, 2, 2, 1] ψ := by
    rw [← k3]
    ext q
    obtain ⟨a, b, ha, hb, hq⟩ := hcf q.1 q.2
    show ψ'.f q.1 = -1 * ψ.f q.1
    rw [hq, (hf a b ha hb).1, (hf a b ha hb).2, show phys coldStart = [2, 2] from rfl, sum_two_two]
    simp only [flip_entry, coldStart_amp]
    interval_cases a <;> interval_cases b <;> norm_num
  have hNψ : inner ℝ (toV [1, 2, 2, 1] ψ) (toV [1, 2, 2, 1] ψ) = 8 := by
    rw [inner_toV]
    have hcf : configs [1, 2, 2, 1] = {[0, 0, 0, 0], [0, 0, 1, 0], [0, 1, 0, 0], [0, 1, 1, 0]} := by decide
    rw [hcf, sum_insert (by decide), sum_insert (by decide), sum_insert (by decide), sum_singleton]
    rw [(hf 0 0 (by omega) (by omega)).1, (hf 0 1 (by omega) (by omega)).1, (hf 1 0 (by omega) (by omega)).1, (hf 1 1 (by omega) (by omega)).1]
    simp only [coldStart_amp]
    norm_num
  obtain ⟨E', κ, v1, v2, _⟩ := lanczos_stationary T _ (-1) 8 hTψ hNψ (by
    apply Real.le_sqrt_of_sq_le
    norm_num)
  rw [u1] at v1
  have v3 : toV [1, 2, 2, 1] θ = κ • toV [1, 2, 2, 1] ψ := by
    have := Except.ok.inj v1
    exact (Prod.ext_iff.1 this).2
  have hθ : ∀ q ∈ configs [1, 2, 2, 1], θ.f q = κ * ψ.f q := fun q hq => congrArg (fun x : Vec ℝ [1, 2, 2, 1] => x ⟨q, hq⟩) v3
  have halive : ∀ E θ, Found flipOp coldStart 0 E θ → ∃ q ∈ configs θ.dims, θ.f q ≠ 0 := by
    intro E1 θ1 h1
    obtain ⟨rfl, rfl⟩ := huniq E1 θ1 h1
    refine ⟨[0, 0, 0, 0], by rw [t2]; decide, ?_⟩
    rw [hθ _ (by decide), (hf 0 0 (by omega) (by omega)).1, coldStart_amp]
    simp [v2]
  have hn8 : normSq coldStart = 8 := by
    rw [flip_norm rfl]
    simp only [coldStart_amp]
    norm_num
  refine ⟨⟨hsz, fun _ h => by rw [hn8] at h; norm_num at h, fun _ => halive⟩, ?_⟩
  obtain ⟨E2, θ2, A', B', c1, c2, c3, c4, c5, c6, c7, c8, c9, _, d1⟩ := cold_update flipOp coldStart hfac 0 fwd cutoff hcut minB maxB hmin hF hc ⟨rfl, rfl⟩
    (by simp [coldStart]) halive hsz
  obtain ⟨rfl, rfl⟩ := huniq E2 θ2 c1
  obtain ⟨d2, d3⟩ := d1 hcan
  obtain ⟨z, hz⟩ := d3 ⟨fun e => κ * (if e.getD 1 0 = 0 then 2 else -2), fun e => if e.getD 0 0 = 0 then 1 else 0, fun q hq => by
    rw [t2] at hq
    rw [hθ q hq]
    obtain ⟨a, b, ha, hb, rfl⟩ := hcf q hq
    rw [(hf a b ha hb).1, coldStart_amp]
    simp only [List.take_succ_cons, List.take_zero, List.drop_succ_cons, List.drop_zero, List.getD_cons_zero, List.getD_cons_succ]
    ring⟩
  rw [show phys coldStart = [2, 2] from rfl] at hz c5
  have hz' : ∀ a b, a < 2 → b < 2 → κ * ((if a = 0 then 2 else -2) * (if b = 0 then 1 else 0)) = z * amp (withPair coldStart 0 A' B') [a, b] 0 0 := by
    intro a b ha hb
    rw [← hz [a, b] (by rw [mem_configs]; unfold InRange; simp [ha, hb]), ← coldStart_amp, ← (hf a b ha hb).1, ← hθ _ (by
      rw [mem_configs]; unfold InRange; simp [ha, hb])]
    simp [pairAmp, t2, amp, coldStart]
  have z0 : z ≠ 0 := by
    rintro rfl
    have := hz' 0 0 (by omega) (by omega)
    simp at this
    exact v2 this
  refine ⟨_, _, c2, c3, c4, c5, d2, ?_⟩
  rw [flip_norm c5] at d2
  rw [flip_energy c5]
  have e1 := hz' 0 0 (by omega) (by omega)
  have e2 := hz' 0 1 (by omega) (by omega)
  have e3 := hz' 1 0 (by omega) (by omega)
  have e4 := hz' 1 1 (by omega) (by omega)
  simp [z0] at e2 e4
  have e5 : amp (withPair coldStart 0 A' B') [1, 0] 0 0 = - amp (withPair coldStart 0 A' B') [0, 0] 0 0 := by
    apply mul_left_cancel₀ z0
    rw [← e3, mul_neg, ← e1]
    norm_num
  rw [e2, e4, e5] at d2 ⊢
  linarith

/-- The premises of C96 about the updates of a run are met. -/
theorem cold_run (hfac : DenseSvd fac) (cutoff : ℝ) (hcut : 0 ≤ cutoff) (minB maxB : Nat) (hmin : 1 ≤ minB) (maxIt : Nat) (hmax : 1 ≤ maxIt) :
    RunAll (cutDmrg flipOp fac cutoff minB maxB) (Ready flipOp) (tours 2 0 maxIt) coldStart := by
  have hall : ∀ (l : List (Nat × Bool)) (s : List (Blk ℝ)), (∀ p ∈ l, p.1 = 0) → Fit s flipOp s → Closed s → phys s = [2, 2] →
      normSq s = 1 → energy flipOp s = -1 → RunAll (cutDmrg flipOp fac cutoff minB maxB) (Ready flipOp) l s := by
    intro l
    induction l with
    | nil => intros; trivial
    | cons p l ih =>
      intro s hl hF hc hp hn he
      obtain ⟨o, f⟩ := p
      have ho : o = 0 := hl (o, f) (by simp)
      subst ho
      obtain ⟨h1, s', h2, h3, h4, h5, h6, h7, _⟩ := flip_cut hfac cutoff hcut minB maxB (.inl hmin) f hF hc hp hn (.inr he)
      have hcan : PairCanonical s 0 := ⟨fun i A _ h => by omega, fun i A h hi => by
        have := (List.getElem?_eq_some_iff.1 h).1
        have := congrArg List.length hp
        simp [phys] at this
        omega⟩
      refine ⟨⟨h1.2, fun _ _ => h1.1, fun h => absurd ⟨hcan, hn⟩ h⟩, fun r hr => ?_⟩
      rw [h2] at hr; cases hr
      exact ih s' (fun p hp => hl p (by simp [hp])) h3 h4 h5 h6 h7
  obtain ⟨k, rfl⟩ : ∃ k, maxIt = k + 1 := ⟨maxIt - 1, by omega⟩
  have hz := tours_two_zero (k + 1)
  rw [tours_succ] at hz ⊢
  rw [show tour 2 0 = [(0, false), (0, false)] by simp [tour]] at hz ⊢
  obtain ⟨h1, E, s', h2, h3, h4, h5, h6, h7⟩ := cold_first hfac cutoff hcut minB maxB hmin false
  refine ⟨h1, fun r hr => ?_⟩
  rw [h2] at hr; cases hr
  exact hall _ s' (fun p hp => hz p (List.mem_cons_of_mem _ hp)) h3 h4 h5 h6 h7

/-- The hypotheses of C96 are met: a start that is not normalised, any number of sweeps and any cutoff. -/
example : ∃ fac : Blk ℝ → Blk ℝ × Blk ℝ × Blk ℝ, ∀ (above : ℝ → ℝ → Bool) (maxIt : Nat), 1 ≤ maxIt → ∀ (cutoff : ℝ), 0 ≤ cutoff → ∀ maxB, 
    ∃ e fin oc log, dmrgRandom flipOp fac cutoff 1 maxB (.ok (onesLike [1, 1, 1])) above tooSmall (moveOcDense star (svdOf fac)) 100000 maxIt
      coldRnd = .ok (e, fin, oc, log) ∧ normSq fin = 1 ∧ phys fin = [2, 2] ∧ -1 ≤ e := by
  obtain ⟨fac, hfac⟩ := LA.denseSvd_exists ℝ
  refine ⟨fac, fun above maxIt hmax cutoff hcut maxB => ?_⟩
  obtain ⟨sites, h1, h2, h3⟩ := C96_dmrg_partial flipOp hfac (svdOk_dense hfac) cutoff hcut 1 maxB le_rfl flipStart_good.fit.op (by
    intro W hW
    simp [flipOp] at hW
    rcases hW with rfl | rfl <;> rfl) ⟨rfl, rfl⟩ [2, 2] rfl flip_herm (by simp [flipOp]) (by simp [flipOp]) (.ok (onesLike [1, 1, 1])) above 100000
      maxIt hmax coldRnd
  rw [coldStart_random] at h1
  cases h1
  have hn8 : normSq coldStart = 8 := by
    rw [flip_norm rfl]
    simp only [coldStart_amp]
    norm_num
  obtain ⟨e, fin, oc, log, g1, g2, g3, ⟨n, s, g4, _, _⟩, g5⟩ := h3 (by rw [hn8]; norm_num) (cold_run hfac cutoff hcut 1 maxB le_rfl maxIt hmax)
  exact ⟨e, fin, oc, log, g1, g3, g2, ((g5 n e s g4).2.2.2 (.inr (by simp [flipOp]))).1 _ flip_bound⟩

/-! ### Three sites of one state each -/

/-- Minus the identity on three sites of one state each. -/
def oneOp : List (Blk ℝ) := [⟨[1, 1, 1, 1], fun _ => -1⟩, ⟨[1, 1, 1, 1], fun _ => 1⟩, ⟨[1, 1, 1, 1], fun _ => 1⟩]

/-- The numbers of a chain of three sites of one state each, all bonds of size one. -/
def oneChain (A B C : List Nat → ℝ) : List (Blk ℝ) := [⟨[1, 1, 1], A⟩, ⟨[1, 1, 1], B⟩, ⟨[1, 1, 1], C⟩]

theorem one_random (rnd : Nat → List Nat → ℝ) : randomFor 1 oneOp rnd = .ok (oneChain (rnd 0) (rnd 1) (rnd 2)) := rfl

theorem one_linked : Linked 4 (oneOp.map Blk.dims) := by
  refine ⟨by simp [oneOp], fun i s s' h1 h2 => ?_⟩
  match i, h1, h2 with
  | 0, h1, h2 => cases h1; cases h2; rfl
  | 1, h1, h2 => cases h1; cases h2; rfl
  | 2, h1, h2 => cases h2
  | _ + 3, h1, h2 => cases h1

theorem one_fit (A B C : List Nat → ℝ) : Fit (oneChain A B C) oneOp (oneChain A B C) ∧ Closed (oneChain A B C) := by
  refine random_fit (bond := 1) (rnd := fun i => if i = 0 then A else if i = 1 then B else C) (by simp [oneOp]) one_linked ?_ rfl ?_
  · intro W hW
    simp [oneOp] at hW
    rcases hW with rfl | rfl <;> rfl
  · intro i W hW
    match i, hW with
    | 0, hW => cases hW; rfl
    | 1, hW => cases hW; rfl
    | 2, hW => cases hW; rfl
    | _ + 3, hW => cases hW

theorem one_configs : configs [1, 1, 1] = {[0, 0, 0]} := by decide

theorem one_entry : opEntry oneOp [0, 0, 0] [0, 0, 0] 0 0 = -1 := by simp [opEntry, mpoEntry, oneOp]

theorem one_bound : BoundedBelow oneOp [1, 1, 1] (-1) := by
  intro v
  rw [one_configs]
  simp only [sum_singleton, one_entry]
  simp
  nlinarith

/-- The update at either pair of such a chain: `μ` is the number of the site left alone. -/
theorem one_update (hfac : DenseSvd fac) (cutoff : ℝ) (hcut : 0 ≤ cutoff) (A B C : List Nat → ℝ) (o : Nat) (fwd : Bool) (ho : o < 2) (ν μ : ℝ)
    (hν : (if o = 0 then A [0, 0, 0] * B [0, 0, 0] else B [0, 0, 0] * C [0, 0, 0]) ^ 2 = ν)
    (hμ : (if o = 0 then C [0, 0, 0] else A [0, 0, 0]) ^ 2 = μ) (hb : 1e-15 ≤ √((-μ) ^ 2 * (1 - ν) ^ 2 * ν)) :
    ∃ (E : ℝ) (A' B' : List Nat → ℝ), (cutDmrg oneOp fac cutoff 1 1).fresh o fwd (oneChain A B C)
        = .ok (E, if o = 0 then oneChain A' B' C else oneChain A A' B') ∧ (A' [0, 0, 0] * B' [0, 0, 0]) ^ 2 = 1 ∧
      (fwd = true → A' [0, 0, 0] ^ 2 = 1) ∧
      ∀ x y : ℝ, E * (x ^ 2 + y ^ 2) ≤ -μ * ν * x ^ 2 + 2 * √((-μ) ^ 2 * (1 - ν) ^ 2 * ν) * x * y + -μ * y ^ 2 := by
  obtain ⟨hF, hc⟩ := one_fit A B C
  have hlen : o + 1 < (oneChain A B C).length := by simp [oneChain]; omega
  obtain ⟨A0, B0, W1, W2, Le, Re, H2, ψ, ψ', E, θ, n, i, m, j, n', T, gA, gB, gW1, gW2, h1, h2, h3, hψ, hA, hB, hψd, hpt, k3, t1, t2, u1, hE, huniq⟩ :=
    cold_found oneOp (oneChain A B C) o hF hc ⟨rfl, rfl⟩ hlen
  have hall : ∀ X ∈ oneChain A B C, X.dims = [1, 1, 1] := by
    intro X hX
    simp [oneChain] at hX
    rcases hX with rfl | rfl | rfl <;> rfl
  have hA1 := hall A0 (List.mem_of_getElem? gA)
  have hB1 := hall B0 (List.mem_of_getElem? gB)
  rw [hA1] at hA
  rw [hB1] at hB
  obtain ⟨rfl, rfl, rfl, _⟩ : 1 = n ∧ 1 = i ∧ 1 = m ∧ True := by simpa using hA
  obtain ⟨rfl, rfl, _⟩ : 1 = j ∧ 1 = n' ∧ True := by simpa using hB
  have hcf : configs [1, 1, 1, 1] = {[0, 0, 0, 0]} := by decide
  have hψf : ψ.f [0, 0, 0, 0] = A0.f [0, 0, 0] * B0.f [0, 0, 0] := by
    simp [dot1, hA1, hB1] at hψ
    rw [← hψ]
    simp
  have hAB : ψ.f [0, 0, 0, 0] ^ 2 = ν := by
    rw [hψf, ← hν]
    have : o = 0 ∨ o = 1 := by omega
    rcases this with rfl | rfl <;> · cases gA; cases gB; rfl
  have hNψ : inner ℝ (toV [1, 1, 1, 1] ψ) (toV [1, 1, 1, 1] ψ) = ν := by
    rw [inner_toV, hcf, sum_singleton, ← hAB]
    simp [sq]
  have hTψ : T (toV [1, 1, 1, 1] ψ) = (-μ) • toV [1, 1, 1, 1] ψ := by
    have h := hE ψ ⟨[1, 1, 1, 1], fun _ => 1⟩ hψd rfl
    rw [← k3, inner_toV, hcf, sum_singleton] at h
    unfold pairSandwich at h
    rw [show phys (oneChain A B C) = [1, 1, 1] from rfl, one_configs] at h
    simp only [sum_singleton, one_entry] at h
    rw [← k3]
    ext q
    obtain ⟨q, hq⟩ := q
    rw [hcf, mem_singleton] at hq
    subst hq
    show ψ'.f [0, 0, 0, 0] = -μ * ψ.f [0, 0, 0, 0]
    have : o = 0 ∨ o = 1 := by omega
    rcases this with rfl | rfl
    · simp [pairAmp, hψd, oneChain, amp] at h hμ
      rw [h, ← hμ]
      ring
    · simp [pairAmp, hψd, oneChain, amp] at h hμ
      rw [h, ← hμ]
      ring
  obtain ⟨E', κ, v1, v2, v4⟩ := lanczos_stationary T _ (-μ) ν hTψ hNψ hb
  rw [u1] at v1
  obtain ⟨rfl, v3⟩ := Prod.ext_iff.1 (Except.ok.inj v1)
  simp only at v4 v3
  have hν0 : ν ≠ 0 := by
    rintro rfl
    rw [mul_zero, Real.sqrt_zero] at hb
    norm_num at hb
  obtain ⟨E2, θ2, A', B', c1, c2, c3, c4, c5, c6, c7, c8, c9, d1, _⟩ := cold_update oneOp (oneChain A B C) hfac o fwd cutoff hcut 1 1 le_rfl hF hc
    ⟨rfl, rfl⟩ hlen (by
      intro E1 θ1 hf
      obtain ⟨rfl, rfl⟩ := huniq E1 θ1 hf
      refine ⟨[0, 0, 0, 0], by rw [t2]; decide, ?_⟩
      have : θ1.f [0, 0, 0, 0] = κ * ψ.f [0, 0, 0, 0] := congrArg (fun x : Vec ℝ [1, 1, 1, 1] => x ⟨[0, 0, 0, 0], by decide⟩) v3
      rw [this]
      refine mul_ne_zero v2 fun h0 => hν0 ?_
      rw [← hAB, h0]
      norm_num) (by
      intro X Y hX hY
      rw [gA] at hX; cases hX
      rw [gB] at hY; cases hY
      rw [hA1, hB1]
      norm_num)
  obtain ⟨rfl, rfl⟩ := huniq E2 θ2 c1
  obtain ⟨X, Y, n, i, m, j, n', e1, e2, e3, e4, e5, e6⟩ := c9
  rw [gA] at e1; cases e1
  rw [gB] at e2; cases e2
  rw [hA1] at e3
  rw [hB1] at e4
  obtain ⟨rfl, rfl, rfl, _⟩ : 1 = n ∧ 1 = i ∧ 1 = m ∧ True := by simpa using e3
  obtain ⟨rfl, rfl, _⟩ : 1 = j ∧ 1 = n' ∧ True := by simpa using e4
  have hφ : ∃ φ, dot1 A' B' 2 0 = .ok φ ∧ φ.dims = [1, 1, 1, 1] ∧
      φ.f [0, 0, 0, 0] = ∑ k ∈ range (bondAt (withPair (oneChain A B C) o A' B') o), A'.f [0, 0, k] * B'.f [k, 0, 0] := by
    refine ⟨_, by simp [dot1, e5, e6]; rfl, by simp, by simp⟩
  obtain ⟨φ, p1, p2, p3⟩ := hφ
  have hn := d1 φ p1
  rw [p2, hcf, sum_singleton, p3] at hn
  have hk : bondAt (withPair (oneChain A B C) o A' B') o = 1 := by
    rcases Nat.lt_or_ge 0 (bondAt (withPair (oneChain A B C) o A' B') o) with h | h
    · omega
    · have : bondAt (withPair (oneChain A B C) o A' B') o = 0 := by omega
      rw [this] at hn
      simp at hn
  rw [hk] at hn e5 e6
  rw [sum_range_one, Real.norm_eq_abs, sq_abs] at hn
  have ed : ∀ X : Blk ℝ, X.dims = [1, 1, 1] → X = ⟨[1, 1, 1], X.f⟩ := by
    intro X h
    cases X
    simp at h
    subst h
    rfl
  refine ⟨E2, A'.f, B'.f, ?_, ?_, fun hf => ?_, v4⟩
  · rw [c2]
    congr 2
    unfold withPair
    rw [ed A' e5, ed B' e6]
    have : o = 0 ∨ o = 1 := by omega
    rcases this with rfl | rfl <;> rfl
  · exact hn
  · have := c6 hf 0 0 (by rw [e5]; decide) (by rw [e5]; decide)
    rw [e5] at this
    simp at this
    rw [sq]
    exact this

/-- **C96** (three sites).  The energy DMRG returns can lie below the spectrum of the Hamiltonian, by any exact arithmetic and with numbers
the generator can draw: on three sites the first iteration takes its energy from a chain that is not normalised.  Here the
Hamiltonian is minus the identity on three sites of one state each and all numbers drawn are 1/2; the energy returned after one iteration
is at most -1.15, though -1 is the only energy there is. -/
theorem C96_three_sites_fails (hfac : DenseSvd fac) {svd1 : Blk ℝ → Nat → Blk ℝ × Blk ℝ × Blk ℝ} (hsvd1 : SvdOk svd1) (cutoff : ℝ) (hcut : 0 ≤ cutoff)
    (dflt : Res (Blk ℝ)) (above : ℝ → ℝ → Bool) (e0 : ℝ) :
    BoundedBelow oneOp [1, 1, 1] (-1) ∧
    ∃ e fin oc log, dmrgRandom oneOp fac cutoff 1 1 dflt above tooSmall (moveOcDense star svd1) e0 1 (fun _ _ => 1/2) = .ok (e, fin, oc, log) ∧
      e ≤ -(115/100) := by
  refine ⟨one_bound, ?_⟩
  let I : List (Blk ℝ) → Nat → Prop := fun s _ => ∃ A B C, s = oneChain A B C
  let P : Nat → List (Blk ℝ) → Prop := fun o s => (o = 0 ∧ s = oneChain (fun _ => 1/2) (fun _ => 1/2) (fun _ => 1/2)) ∨
    (o = 1 ∧ ∃ A B, s = oneChain A B (fun _ => 1/2) ∧ A [0, 0, 0] ^ 2 = 1 ∧ B [0, 0, 0] ^ 2 = 1)
  let Q : Nat → Bool → List (Blk ℝ) → ℝ → List (Blk ℝ) → Prop := fun o f s x s' =>
    (o = 1 → x ≤ -(115/100)) ∧ (o = 0 → f = true → P 1 s')
  have hL : Steps (cutDmrg oneOp fac cutoff 1 1) P I Q 3 := by
    intro s c o f _ _ _ hp
    rcases hp with ⟨rfl, rfl⟩ | ⟨rfl, A, B, rfl, hA, hB⟩
    · obtain ⟨E, A', B', h1, h2, h3, _⟩ := one_update hfac cutoff hcut (fun _ => 1/2) (fun _ => 1/2) (fun _ => 1/2) 0 f (by omega) (1/16) (1/4)
        (by norm_num) (by norm_num) (by
          apply Real.le_sqrt_of_sq_le
          norm_num)
      refine ⟨E, _, h1, ⟨_, _, _, rfl⟩, by simp, fun _ hf => .inr ⟨rfl, A', B', rfl, h3 hf, ?_⟩⟩
      rw [mul_pow, h3 hf, one_mul] at h2
      exact h2
    · have hs : √((-(1 : ℝ)) ^ 2 * (1 - 1/4) ^ 2 * (1/4)) = 3/8 := by
        rw [Real.sqrt_eq_iff_mul_self_eq (by norm_num) (by norm_num)]
        norm_num
      obtain ⟨E, A', B', h1, h2, h3, h4⟩ := one_update hfac cutoff hcut A B (fun _ => 1/2) 1 f (by omega) (1/4) 1
        (by simp only [if_neg (by decide : ¬ (1 = 0)), mul_pow, hB]; norm_num) (by simpa using hA) (by rw [hs]; norm_num)
      refine ⟨E, _, h1, ⟨_, _, _, rfl⟩, fun _ => ?_, by simp⟩
      have := h4 1 (-2)
      rw [hs] at this
      linarith
  have hn : normSq (oneChain (fun _ => 1/2) (fun _ => 1/2) (fun _ => 1/2)) = 1/64 := by
    unfold normSq
    rw [show phys (oneChain (fun _ => 1/2) (fun _ => 1/2) (fun _ => 1/2)) = [1, 1, 1] from rfl, one_configs, sum_singleton]
    simp [amp, oneChain]
    norm_num
  have hq : startPair 3 0 = 0 := by decide
  have ht : tour 3 0 = [(0, true), (1, false)] := by decide
  have ht1 : tours 3 0 1 = [(0, true), (1, false)] := by decide
  obtain ⟨e, fin, oc', log, s, h, a1, a2, a3, a4, a5, a6, a7, a8, a9⟩ := dmrg_steps (sites := oneChain (fun _ => 1/2) (fun _ => 1/2) (fun _ => 1/2)) hL (by simp [oneChain])
    (by simp [oneChain]) 0 (by simp [oneChain]) ⟨_, _, _, rfl⟩ true dflt above tooSmall
    (fun _ => by simp only [tooSmall, decide_eq_false_iff_not, not_or, not_lt]; rw [hn]; norm_num)
    (moveOcDense star svd1)
    (fun _ s c hg => by
      obtain ⟨A, B, C, rfl⟩ := hg
      obtain ⟨m', e1, _⟩ := C45_move_oc hsvd1 ⟨oneChain A B C, 1⟩ (one_fit A B C).1.ket (by simp [oneChain]) 0 (by simp [oneChain])
      unfold moveOcDense
      rw [e1]
      exact ⟨_, _, rfl⟩) e0 1 le_rfl (by
        show RunAll _ P (tours 3 (startPair 3 0) 1) _
        rw [hq, ht1]
        refine ⟨.inl ⟨rfl, rfl⟩, fun r hr => ?_⟩
        obtain ⟨x, s', g1, _, g2⟩ := hL _ 0 0 true ⟨_, _, _, rfl⟩ (.inl rfl) (by omega) (.inl ⟨rfl, rfl⟩)
        rw [g1] at hr; cases hr
        exact ⟨g2.2 rfl rfl, fun _ _ => trivial⟩)
  refine ⟨e, fin, oc', log, ?_, ?_⟩
  · unfold dmrgRandom
    rw [one_random]
    exact a1
  · have h2 : h.length = 2 := by omega
    rw [h2] at a5
    have hw := a8 0 _ _ a2 a5
    change Walk Q (tour 3 (startPair 3 0)) _ none (some e) s at hw
    rw [hq, ht] at hw
    cases hw with
    | cons q1 hw =>
      cases hw with
      | cons q2 hw =>
        cases hw
        exact q2.1 rfl

end DM
end QuantiT
