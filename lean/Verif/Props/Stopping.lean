import Verif.Lemmas.Stopping
import Verif.Props.BlockDescent
import Verif.Props.BlockCutRun
import Verif.Props.CutRun
import Verif.Props.Ground
import Verif.Props.SectorEx
/-
C117: the ground state search stops because the energy settles.
-/
namespace QuantiT
open Spec MP HM

namespace DM
variable {𝕜 : Type} [RCLike 𝕜]

theorem movedAbs_drop {c x x' k : ℝ} (hk : x' ≤ x + k) (hkc : k ≤ c) (h : movedAbs c x' x = true) : x' + c ≤ x := by
  unfold movedAbs at h
  have h := of_decide_eq_true h
  by_contra hn
  rcases abs_cases (x - x') with ⟨h1, _⟩ | ⟨h1, _⟩ <;> linarith

theorem movedAbs_near {c x x' : ℝ} (h : movedAbs c x' x = false) : |x - x'| ≤ c := by
  unfold movedAbs at h
  exact not_lt.1 (of_decide_eq_false h)

theorem movedRel_drop {z : ℝ → Bool} {c δ x x' k : ℝ} (hc : 0 ≤ c) (hδ : 0 < δ) (hx : δ ≤ |x'|) (hk : x' ≤ x + k) (hkc : k ≤ c * δ)
    (h : movedRel z c x' x = true) : x' + c * δ ≤ x := by
  have h0 : x' ≠ 0 := by rintro rfl; simp at hx; linarith
  unfold movedRel at h
  rw [if_neg h0] at h
  have h := of_decide_eq_true h
  rw [abs_div, lt_div_iff₀ (by linarith)] at h
  have h1 : c * δ ≤ c * |x'| := mul_le_mul_of_nonneg_left hx hc
  by_contra hn
  rcases abs_cases (x' - x) with ⟨h1, _⟩ | ⟨h1, _⟩ <;> linarith

theorem movedRel_near {z : ℝ → Bool} {c δ x x' : ℝ} (hδ : 0 < δ) (hx : δ ≤ |x'|) (h : movedRel z c x' x = false) : |x' - x| ≤ c * |x'| := by
  have h0 : x' ≠ 0 := by rintro rfl; simp at hx; linarith
  unfold movedRel at h
  rw [if_neg h0] at h
  have h := not_lt.1 (of_decide_eq_false h)
  rw [abs_div, div_le_iff₀ (by linarith)] at h
  exact h

theorem SettledAt.mono {S En : Type} {p q : En → En → Prop} {e0 e : En} {log : List (Event S En)} (h : SettledAt p e0 log e)
    (hpq : ∀ old, p e old → q e old) : SettledAt q e0 log e := by
  obtain ⟨l, x, h1, h2⟩ := h
  exact ⟨l, x, h1, hpq x h2⟩

/-- **C117** (fails): the first sweep is compared with the number 100000.  A run whose first sweep ends with an energy within the criterion of it
makes no second sweep, whatever the change of the energy would have been. -/
theorem C117_first_fails {S E : Type} (dense : Bool) (d : Dmrg S E ℝ) (dflt : E) (crit : ℝ) (zeroNorm : List S → Bool)
    (moveOc : List S → Nat → Nat → Res (List S × Nat)) (maxIt : Nat) (sites : List S) (oc : Nat)
    (h2 : 2 ≤ sites.length) (ho : oc < sites.length) (hsm : sites.length < 2 ^ 63) (e : ℝ) (fin : List S) (oc' : Nat) (log : List (Event S ℝ))
    (hr : dmrg dense d dflt (movedAbs crit) zeroNorm moveOc energyBefore maxIt sites.length sites oc = .ok (e, fin, oc', log))
    (hfar : ∀ x s, Event.iteration 0 x s ∈ log → |100000 - x| ≤ crit) : (energies log).length ≤ 1 :=
  run_one dense d dflt (movedAbs crit) zeroNorm moveOc energyBefore maxIt sites oc h2 ho hsm e fin oc' log hr fun x s hx => by
    unfold movedAbs energyBefore
    exact decide_eq_false (not_lt.2 (hfar x s hx))

/-- **C117** (fails): the block DMRG compares the change of the energy with the energy itself.  While every sweep halves the energy, as when it
tends to a ground state of energy zero, the run makes every sweep it is allowed, however small the energy has become. -/
theorem C117_zero_fails {S E : Type} (dense : Bool) (d : Dmrg S E ℝ) (dflt : E) (atZero : ℝ → Bool) (crit : ℝ) (hcrit : crit < 1)
    (zeroNorm : List S → Bool) (moveOc : List S → Nat → Nat → Res (List S × Nat)) (maxIt : Nat) (sites : List S) (oc : Nat)
    (h2 : 2 ≤ sites.length) (ho : oc < sites.length) (hsm : sites.length < 2 ^ 63) (e : ℝ) (fin : List S) (oc' : Nat) (log : List (Event S ℝ))
    (hr : dmrg dense d dflt (movedRel atZero crit) zeroNorm moveOc energyBefore maxIt sites.length sites oc = .ok (e, fin, oc', log))
    (hne : ∀ x ∈ energies log, x ≠ 0 ∧ |x| ≤ 50000)
    (hhalf : ∀ n x s x' s', Event.iteration n x s ∈ log → Event.iteration (n + 1) x' s' ∈ log → |x'| ≤ |x| / 2) :
    (energies log).length = maxIt := by
  have key : ∀ x y : ℝ, x ≠ 0 → |x| ≤ |y| / 2 → movedRel atZero crit x y = true := by
    intro x y h1 h2
    unfold movedRel
    rw [if_neg h1, decide_eq_true_iff, abs_div, lt_div_iff₀ (abs_pos.2 h1)]
    have h3 := abs_sub_abs_le_abs_sub y x
    rw [abs_sub_comm] at h3
    have h4 : crit * |x| < 1 * |x| := mul_lt_mul_of_pos_right hcrit (abs_pos.2 h1)
    linarith
  refine run_all dense d dflt (movedRel atZero crit) zeroNorm moveOc energyBefore maxIt sites oc h2 ho hsm e fin oc' log hr (fun x s hx => ?_)
    fun n x s x' s' h1 h2 => key _ _ (hne x' (mem_energies.2 ⟨_, _, h2⟩)).1 (hhalf n x s x' s' h1 h2)
  obtain ⟨h1, h2⟩ := hne x (mem_energies.2 ⟨_, _, hx⟩)
  refine key _ _ h1 (h2.trans ?_)
  unfold energyBefore
  norm_num

/-- **C117** (partial: for the runs of C74).  The dense DMRG without truncation stops by itself.  With a criterion `crit` above zero, whatever
limit is put on the number of sweeps, it makes at most `2 + (E - lo) / crit` of them, where `E` is the energy of the starting
state and `lo` a lower bound of the energies of all states; with a higher limit, the last two energies differ by at most `crit`. -/
theorem C117_dense_partial (Ws sites : List (Blk 𝕜)) (svd : Blk 𝕜 → Blk 𝕜 × Blk 𝕜 × Blk 𝕜)
    (svd1 : Blk 𝕜 → Nat → Blk 𝕜 × Blk 𝕜 × Blk 𝕜)
    (hsvd : ∀ X l s t r, X.dims = [l, s, t, r] → ∃ k, SvdPair X (svd X).1 (svd X).2.1 (svd X).2.2 l s t r k) (hsvd1 : SvdOk svd1)
    (hF : Fit sites Ws sites) (hc : Closed sites) (hcW : Closed Ws) (hH : HermitianOp Ws (phys sites))
    (h2 : 2 ≤ sites.length) (hsm : sites.length < 2 ^ 63) (oc : Nat) (ho : oc < sites.length) (hcan : Canonical sites oc)
    (hn : normSq sites = 1) (dflt : Res (Blk 𝕜)) (crit : ℝ) (hcrit : 0 < crit) (maxIt : Nat) (hmax : 1 ≤ maxIt)
    (hreg : RegularRun (blkDmrg Ws svd) Ws (tours sites.length (startPair sites.length oc) maxIt) sites)
    (lo : ℝ) (hlo : BoundedBelow Ws (phys sites) lo) :
    ∃ e fin oc' log, dmrg true (blkDmrg Ws svd) dflt (movedAbs crit) tooSmall (moveOcDense star svd1) energyBefore maxIt sites.length sites oc
        = .ok (e, fin, oc', log) ∧ e = energy Ws fin ∧
      ((energies log).length : ℝ) ≤ 2 + (energy Ws sites - lo) / crit ∧
      (2 + (energy Ws sites - lo) / crit < maxIt → SettledAt (fun new old => |old - new| ≤ crit) energyBefore log e) := by
  obtain ⟨e, fin, oc', log, a1, a2, a3, a4, a5, a6, a7, a8⟩ := C74_descent_partial Ws sites svd svd1 hsvd hsvd1 hF hc hcW hH h2 hsm oc ho hcan hn dflt
    (movedAbs crit) energyBefore maxIt hmax hreg
  obtain ⟨b1, b2⟩ := run_settles true _ dflt (movedAbs crit) tooSmall (moveOcDense star svd1) energyBefore maxIt sites oc h2 ho hsm e fin oc' log a1 crit lo
    (energy Ws sites) hcrit ((a6 lo hlo).trans a5) (fun n x s hm => ⟨(a6 lo hlo).trans (a7 n x s hm).2.2.2.1, (a7 n x s hm).2.2.2.2⟩)
    (fun n x s x' s' h1 h2 hab => movedAbs_drop (k := 0) (by linarith [a8 n x s x' s' h1 h2]) hcrit.le hab)
  exact ⟨e, fin, oc', log, a1, a4, b1, fun h => SettledAt.mono (b2 h) fun old => movedAbs_near⟩

/-- **C117** (partial: for the runs of `C87_energy_partial`, whose bonds stay below the limit).  The same with truncation, if the weight that the
truncations of one sweep may lose, times the width of the spectrum, is not above the criterion. -/
theorem C117_dense_cut_partial (Ws sites : List (Blk 𝕜)) {fac : Blk 𝕜 → Blk 𝕜 × Blk 𝕜 × Blk 𝕜} (hfac : DenseSvd fac)
    {svd1 : Blk 𝕜 → Nat → Blk 𝕜 × Blk 𝕜 × Blk 𝕜} (hsvd1 : SvdOk svd1) (cutoff : ℝ) (hcut : 0 ≤ cutoff) (minB maxB : Nat) (hmin : 1 ≤ minB ∨ cutoff < 1 ∧ 1 ≤ maxB)
    (hF : Fit sites Ws sites) (hc : Closed sites) (hcW : Closed Ws) (hH : HermitianOp Ws (phys sites))
    (h2 : 2 ≤ sites.length) (hsm : sites.length < 2 ^ 63) (oc : Nat) (ho : oc < sites.length) (hcan : Canonical sites oc)
    (hn : normSq sites = 1) (dflt : Res (Blk 𝕜)) (crit : ℝ) (hcrit : 0 < crit) (maxIt : Nat) (hmax : 1 ≤ maxIt)
    (hreg : RunAll (cutDmrg Ws fac cutoff minB maxB) (fun o s => CutAdmissible Ws o s ∧ Room (cutDmrg Ws fac cutoff minB maxB) maxB o s)
      (tours sites.length (startPair sites.length oc) maxIt) sites)
    (lo hi : ℝ) (hlo : BoundedBelow Ws (phys sites) lo) (hhi : BoundedAbove Ws (phys sites) hi)
    (hsmall : (tour sites.length (startPair sites.length oc)).length * ((hi - lo) * cutoff) ≤ crit) :
    ∃ e fin oc' log, dmrg true (cutDmrg Ws fac cutoff minB maxB) dflt (movedAbs crit) tooSmall (moveOcDense star svd1) energyBefore
        maxIt sites.length sites oc = .ok (e, fin, oc', log) ∧ |e - energy Ws fin| ≤ (hi - lo) * cutoff ∧
      ((energies log).length : ℝ) ≤ 2 + (hi - lo) / crit ∧
      (2 + (hi - lo) / crit < maxIt → SettledAt (fun new old => |old - new| ≤ crit) energyBefore log e) := by
  obtain ⟨e, fin, oc', log, a1, a2, a3, a4⟩ := C87_energy_partial Ws sites hfac hsvd1 cutoff hcut minB maxB hmin hF hc hcW hH h2 hsm oc ho hcan hn dflt
    (movedAbs crit) energyBefore maxIt hmax hreg lo hi hlo hhi
  obtain ⟨e', fin', oc'', log', c1, -, -, ⟨n0, s0, c3, -⟩, c2⟩ := C87_run_partial Ws sites hfac hsvd1 cutoff hcut minB maxB hmin hF hc hcW hH h2 hsm oc ho
    hcan hn dflt (movedAbs crit) energyBefore maxIt hmax (RunAll.mono _ (fun o s h => h.1) _ _ hreg)
  rw [a1] at c1
  cases c1
  have hlu : lo ≤ hi := ((c2 _ _ _ c3).2.2.1 lo hlo).trans ((c2 _ _ _ c3).2.2.2.1 hi hhi)
  obtain ⟨b1, b2⟩ := run_settles true _ dflt (movedAbs crit) tooSmall (moveOcDense star svd1) energyBefore maxIt sites oc h2 ho hsm e fin oc' log a1 crit lo
    hi hcrit hlu (fun n x s hm => ⟨(c2 n x s hm).2.2.1 lo hlo, (c2 n x s hm).2.2.2.1 hi hhi⟩)
    (fun n x s x' s' h1 h2 hab => movedAbs_drop (a4 n x s x' s' h1 h2) hsmall hab)
  exact ⟨e, fin, oc', log, a1, a2, b1, fun h => SettledAt.mono (b2 h) fun old => movedAbs_near⟩

/-- **C117** (partial: as `C117_dense_partial`).  On the Heisenberg Hamiltonian of the library a run without truncation makes at most
`2 + (L - 1) |J| / crit` sweeps. -/
theorem C117_heisenberg_partial (J : ℝ) (L : Nat) (hL : 2 ≤ L) (hsm : L < 2 ^ 63) :
    ∃ Ws : List (Blk 𝕜), heisenberg (J : 𝕜) L = .ok Ws ∧
      ∀ (svd : Blk 𝕜 → Blk 𝕜 × Blk 𝕜 × Blk 𝕜) (svd1 : Blk 𝕜 → Nat → Blk 𝕜 × Blk 𝕜 × Blk 𝕜),
        (∀ X l s t r, X.dims = [l, s, t, r] → ∃ k, SvdPair X (svd X).1 (svd X).2.1 (svd X).2.2 l s t r k) → SvdOk svd1 →
      ∀ (sites : List (Blk 𝕜)) (oc : Nat), Start L 2 oc sites → ∀ (dflt : Res (Blk 𝕜)) (crit : ℝ) (maxIt : Nat), 0 < crit → 1 ≤ maxIt →
        RegularRun (blkDmrg Ws svd) Ws (tours L (startPair L oc) maxIt) sites →
      ∃ e fin oc' log, dmrg true (blkDmrg Ws svd) dflt (movedAbs crit) tooSmall (moveOcDense star svd1) energyBefore maxIt L sites oc = .ok (e, fin, oc', log) ∧
        ((energies log).length : ℝ) ≤ 2 + (L - 1) * |J| / crit ∧
        (2 + (L - 1) * |J| / crit < maxIt → SettledAt (fun new old => |old - new| ≤ crit) energyBefore log e) := by
  obtain ⟨Ws, h1, hO⟩ := heisenberg_operator (𝕜 := 𝕜) J L hL
  refine ⟨Ws, h1, fun svd svd1 hsvd hsvd1 sites oc hs dflt crit maxIt hcrit hmax hreg => ?_⟩
  have hlen : sites.length = L := by have := congrArg List.length hs.phys; simpa [Spec.phys] using this
  subst hlen
  have hn := (normSq_eq hs.phys).2 hs.norm
  obtain ⟨e, fin, oc', log, c1, -, c3, c4⟩ := C117_dense_partial Ws sites svd svd1 hsvd hsvd1 (hs.fit hO) hs.closed hO.closed
    (by rw [hs.phys]; exact hermitianOp_of hO.matrix hO.herm) hL hsm oc hs.inside hs.canon hn dflt crit hcrit maxIt hmax hreg
    (((sites.length : ℝ) - 1) * min (-J / 4) (3 * J / 4)) (by rw [hs.phys]; exact boundedBelow_of hO.matrix (heisenbergH_bound J _ (by omega)))
  have hE : energy Ws sites - ((sites.length : ℝ) - 1) * min (-J / 4) (3 * J / 4) ≤ ((sites.length : ℝ) - 1) * |J| := by
    have hm : max (-J / 4) (3 * J / 4) - min (-J / 4) (3 * J / 4) = |J| := by
      rw [max_sub_min_eq_abs, show 3 * J / 4 - -J / 4 = J by ring]
    have := heisenbergH_above (𝕜 := 𝕜) J sites.length (by omega) (stateVec sites.length 2 sites)
    rw [energy_eq hs.phys, hO.matrix, ← hm, mul_sub]
    rw [(normalised_iff _).1 hs.norm] at this
    linarith
  have hle : 2 + (energy Ws sites - ((sites.length : ℝ) - 1) * min (-J / 4) (3 * J / 4)) / crit ≤ 2 + ((sites.length : ℝ) - 1) * |J| / crit := by
    have := div_le_div_of_nonneg_right hE hcrit.le
    linarith
  exact ⟨e, fin, oc', log, c1, c3.trans hle, fun h => c4 (hle.trans_lt h)⟩
end DM

namespace BN
open BT
variable {G 𝕜 : Type} [RCLike 𝕜]

/-- **C117** (partial: for the runs of C82, and energies that stay away from zero).  The block DMRG without truncation compares the change of the
energy with the energy itself.  If none of the energies the logger hears is closer to zero than `δ > 0`, it makes at most
`2 + (E - lo) / (crit δ)` sweeps; with a higher limit, the last two energies differ by at most `crit` times the last.  The energies all lie
between `lo` and `E`, so the condition holds if `δ ≤ lo` or `E ≤ -δ`. -/
theorem C117_block_partial [AddCommGroup G] [LinearOrder G] (late : Bool) (Ws sites : List (BT G 𝕜))
    (fac : Blk 𝕜 → Blk 𝕜 × Blk 𝕜 × Blk 𝕜) (hfac : SvdSizes fac) (hprod : SvdProduct fac) (horth : SvdOrtho fac) (hreal : SvdReal fac)
    (hF : BlockFit sites Ws sites) (hpW : AllPositive Ws) (hc : Closed (sites.map denseOf)) (hcW : Closed (Ws.map denseOf))
    (hl : late = false ∨ chargeAt (leftDim Ws) 0 = 0 ∧ chargeAt (rightDim Ws) 0 = 0) (hr : Neutral Ws)
    (hH : HermitianOp (Ws.map denseOf) (phys (sites.map denseOf))) (h2 : 2 ≤ sites.length) (hsm : sites.length < 2 ^ 63)
    (oc : Nat) (ho : oc < sites.length) (hcan : Canonical (sites.map denseOf) oc) (hn : normSq (sites.map denseOf) = 1)
    (dflt : Res (BT G 𝕜)) (atZero : ℝ → Bool) (crit : ℝ) (hcrit : 0 < crit) (zeroNorm : List (BT G 𝕜) → Bool)
    (moveOc : List (BT G 𝕜) → Nat → Nat → Res (List (BT G 𝕜) × Nat)) (maxIt : Nat) (hmax : 1 ≤ maxIt)
    (hreg : DM.RunAll (bDmrg late Ws (fun t => svdSplit fac t 2) sites) (Admissible late Ws sites)
      (DM.tours sites.length (startPair sites.length oc) maxIt) sites)
    (lo : ℝ) (hlo : BoundedBelow (Ws.map denseOf) (phys (sites.map denseOf)) lo) :
    ∃ e fin log, DM.dmrg false (bDmrg late Ws (fun t => svdSplit fac t 2) sites) dflt (DM.movedRel atZero crit) zeroNorm moveOc DM.energyBefore maxIt
        sites.length sites oc = .ok (e, fin, startPair sites.length oc, log) ∧ e = energy (Ws.map denseOf) (fin.map denseOf) ∧
      (∀ x ∈ energies log, lo ≤ x ∧ x ≤ energy (Ws.map denseOf) (sites.map denseOf)) ∧
      ∀ δ, 0 < δ → (∀ x ∈ energies log, δ ≤ |x|) →
        ((energies log).length : ℝ) ≤ 2 + (energy (Ws.map denseOf) (sites.map denseOf) - lo) / (crit * δ) ∧
        (2 + (energy (Ws.map denseOf) (sites.map denseOf) - lo) / (crit * δ) < maxIt →
          SettledAt (fun new old => |new - old| ≤ crit * |new|) DM.energyBefore log e) := by
  obtain ⟨e, fin, log, a1, a2, a3, a4, a5, a6, a7, -, a8, a9⟩ := C82_descent_partial late Ws sites fac hfac hprod horth hreal hF hpW hc hcW hl hr hH h2 hsm oc
    ho hcan hn dflt (DM.movedRel atZero crit) zeroNorm moveOc DM.energyBefore maxIt hmax hreg
  have hb := a7 lo hlo
  have hx : ∀ n x s, Event.iteration n x s ∈ log → lo ≤ x ∧ x ≤ energy (Ws.map denseOf) (sites.map denseOf) := fun n x s hm =>
    ⟨hb.trans (a8 n x s hm).2.2.2.1, (a8 n x s hm).2.2.2.2.1⟩
  refine ⟨e, fin, log, a1, a5, fun x hm => ?_, fun δ hδ away => ?_⟩
  · obtain ⟨n, s, hm⟩ := DM.mem_energies.1 hm
    exact hx n x s hm
  obtain ⟨b1, b2⟩ := DM.run_settles false _ dflt (DM.movedRel atZero crit) zeroNorm moveOc DM.energyBefore maxIt sites oc h2 ho hsm e fin _ log a1 (crit * δ) lo
    (energy (Ws.map denseOf) (sites.map denseOf)) (mul_pos hcrit hδ) (hb.trans a6) hx
    (fun n x s x' s' h1 h2 hab => DM.movedRel_drop (k := 0) hcrit.le hδ (away x' (DM.mem_energies.2 ⟨_, _, h2⟩)) (by linarith [a9 n x s x' s' h1 h2])
      (mul_pos hcrit hδ).le hab)
  exact ⟨b1, fun h => DM.SettledAt.mono (b2 h) fun old => DM.movedRel_near hδ (away e (DM.SettledAt.mem (b2 h)))⟩

/-- **C117** (partial: for the runs of `C97_energy_partial`, whose bonds stay below the limit, and energies that stay away from zero).  The same
with truncation, if the weight that the truncations of one sweep may lose, times the width of the spectrum, is not above `crit δ`. -/
theorem C117_block_cut_partial [AddCommGroup G] [LinearOrder G] (late : Bool) (Ws sites : List (BT G 𝕜))
    {fac : Blk 𝕜 → Blk 𝕜 × Blk 𝕜 × Blk 𝕜} (hfac : DenseSvd fac) (eps cutoff : ℝ) (he0 : 0 < eps) (he1 : eps ≤ 1 / 2) (hcut : 0 ≤ cutoff)
    (minB maxB : Nat) (hmin : 1 ≤ minB ∨ cutoff < 1 ∧ 1 ≤ maxB)
    (hF : BlockFit sites Ws sites) (hpW : AllPositive Ws) (hc : Closed (sites.map denseOf)) (hcW : Closed (Ws.map denseOf))
    (hl : late = false ∨ chargeAt (leftDim Ws) 0 = 0 ∧ chargeAt (rightDim Ws) 0 = 0) (hr : Neutral Ws)
    (hH : HermitianOp (Ws.map denseOf) (phys (sites.map denseOf))) (h2 : 2 ≤ sites.length) (hsm : sites.length < 2 ^ 63)
    (oc : Nat) (ho : oc < sites.length) (hcan : SemiCanonical (sites.map denseOf) oc) (hn : normSq (sites.map denseOf) = 1)
    (dflt : Res (BT G 𝕜)) (atZero : ℝ → Bool) (crit : ℝ) (hcrit : 0 < crit) (zeroNorm : List (BT G 𝕜) → Bool)
    (moveOc : List (BT G 𝕜) → Nat → Nat → Res (List (BT G 𝕜) × Nat)) (maxIt : Nat) (hmax : 1 ≤ maxIt)
    (hreg : DM.RunAll (cutDmrgB late Ws fac eps cutoff minB maxB sites) (fun o s => CutAdmissible late Ws sites fac eps cutoff minB maxB o s ∧
        RoomB (cutDmrgB late Ws fac eps cutoff minB maxB sites) maxB o s)
      (DM.tours sites.length (startPair sites.length oc) maxIt) sites)
    (lo hi : ℝ) (hlo : BoundedBelow (Ws.map denseOf) (phys (sites.map denseOf)) lo)
    (hhi : BoundedAbove (Ws.map denseOf) (phys (sites.map denseOf)) hi) :
    ∃ e fin log, DM.dmrg false (cutDmrgB late Ws fac eps cutoff minB maxB sites) dflt (DM.movedRel atZero crit) zeroNorm moveOc DM.energyBefore maxIt
        sites.length sites oc = .ok (e, fin, startPair sites.length oc, log) ∧ |e - energy (Ws.map denseOf) (fin.map denseOf)| ≤ (hi - lo) * cutoff ∧
      (∀ x ∈ energies log, lo ≤ x ∧ x ≤ hi) ∧
      ∀ δ, 0 < δ → (tour sites.length (startPair sites.length oc)).length * ((hi - lo) * cutoff) ≤ crit * δ → (∀ x ∈ energies log, δ ≤ |x|) →
        ((energies log).length : ℝ) ≤ 2 + (hi - lo) / (crit * δ) ∧
        (2 + (hi - lo) / (crit * δ) < maxIt → SettledAt (fun new old => |new - old| ≤ crit * |new|) DM.energyBefore log e) := by
  obtain ⟨e, fin, log, a1, a2, a3, a4⟩ := C97_energy_partial late Ws sites hfac eps cutoff he0 he1 hcut minB maxB hmin hF hpW hc hcW hl hr hH h2 hsm oc ho hcan
    hn dflt (DM.movedRel atZero crit) zeroNorm moveOc DM.energyBefore maxIt hmax hreg lo hi hlo hhi
  obtain ⟨e', fin', log', c1, ⟨n0, c3, -⟩, c2⟩ := C97_run_partial late Ws sites hfac eps cutoff he0 he1 hcut minB maxB hmin hF hpW hc hcW hl hr hH h2 hsm oc ho
    hcan hn dflt (DM.movedRel atZero crit) zeroNorm moveOc DM.energyBefore maxIt hmax (DM.RunAll.mono _ (fun o s h => h.1) _ _ hreg)
  rw [a1] at c1
  cases c1
  have hx : ∀ n x s, Event.iteration n x s ∈ log → lo ≤ x ∧ x ≤ hi := fun n x s hm =>
    ⟨(c2 n x s hm).2.2.2.2.1 lo hlo, (c2 n x s hm).2.2.2.2.2.1 hi hhi⟩
  refine ⟨e, fin, log, a1, a2, fun x hm => ?_, fun δ hδ hsmall away => ?_⟩
  · obtain ⟨n, s, hm⟩ := DM.mem_energies.1 hm
    exact hx n x s hm
  obtain ⟨b1, b2⟩ := DM.run_settles false _ dflt (DM.movedRel atZero crit) zeroNorm moveOc DM.energyBefore maxIt sites oc h2 ho hsm e fin _ log a1 (crit * δ) lo
    hi (mul_pos hcrit hδ) ((hx _ _ _ c3).1.trans (hx _ _ _ c3).2) hx
    (fun n x s x' s' h1 h2 hab => DM.movedRel_drop hcrit.le hδ (away x' (DM.mem_energies.2 ⟨_, _, h2⟩)) (a4 n x s x' s' h1 h2) hsmall hab)
  exact ⟨b1, fun h => DM.SettledAt.mono (b2 h) fun old => DM.movedRel_near hδ (away e (DM.SettledAt.mem (b2 h)))⟩
end BN
end QuantiT
