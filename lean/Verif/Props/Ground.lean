import Verif.Lemmas.GroundModels
import Verif.Props.RandomDense
import Verif.Props.DescentEx
/-
C112: the ground state search on the Hamiltonians of the library.
-/
namespace QuantiT
namespace DM
open Finset Spec MP Matrix HM
variable {𝕜 : Type} [RCLike 𝕜]

/-- What the operators of the library are, whatever their entries. -/
structure Operator (L d : Nat) (H : Matrix (Fin L → Fin d) (Fin L → Fin d) 𝕜) (Ws : List (Blk 𝕜)) : Prop where
  len : Ws.length = L
  linked : Linked 4 (Ws.map Blk.dims)
  closed : Closed Ws
  cols : Ws.map (fun W => W.dims.getD 3 0) = List.replicate L d
  rows : Ws.map (fun W => W.dims.getD 1 0) = List.replicate L d
  matrix : mpoMatrix L d Ws = H
  herm : H.IsHermitian

theorem edges_operator {W : Blk 𝕜} {d K : Nat} (h : W.dims = [K + 2, d, K + 2, d]) (n : Nat) {H : Matrix (Fin (n + 2) → Fin d) (Fin (n + 2) → Fin d) 𝕜}
    (hm : mpoMatrix (n + 2) d (narrow 0 (K + 1) (K + 2) W :: (List.replicate n W ++ [narrow 2 0 1 W])) = H) (hH : H.IsHermitian) :
    Operator (n + 2) d H (narrow 0 (K + 1) (K + 2) W :: (List.replicate n W ++ [narrow 2 0 1 W])) := by
  refine ⟨by simp, edges_linked h n, ⟨?_, ?_⟩, ?_, ?_, hm, hH⟩
  · simp [leftEnd, narrow, h]
  · simp [rightEnd, narrow, h]
    rw [List.getLast?_cons]
    simp [h]
  · simp [narrow, h, List.replicate_succ]
    rw [← List.replicate_succ, ← List.replicate_succ']
  · simp [narrow, h, List.replicate_succ]
    rw [← List.replicate_succ, ← List.replicate_succ']

theorem heisenberg_operator (J : ℝ) (L : Nat) (hL : 2 ≤ L) :
    ∃ Ws, heisenberg (J : 𝕜) L = .ok Ws ∧ Operator L 2 (heisenbergH J L) Ws := by
  obtain ⟨n, rfl⟩ : ∃ n, L = n + 2 := ⟨L - 2, by omega⟩
  refine ⟨_, edges_eq (heisenberg_channels (-(J : 𝕜) / 4)) n, edges_operator rfl n ?_ (heisenbergH_herm J _)⟩
  obtain ⟨Ws, h1, _, h3⟩ := C55_pauli (J : 𝕜) (n + 2) (by omega)
  have h2 : heisenberg (J : 𝕜) (n + 2) = _ := edges_eq (heisenberg_channels (-(J : 𝕜) / 4)) n
  rw [h2] at h1
  cases h1
  exact h3

theorem hubbard_operator (U mu : ℝ) (L : Nat) (hL : 2 ≤ L) :
    ∃ Ws, hubbard (U : 𝕜) (mu : 𝕜) L = .ok Ws ∧ Operator L 4 (hubbardH U mu L) Ws := by
  obtain ⟨n, rfl⟩ : ∃ n, L = n + 2 := ⟨L - 2, by omega⟩
  refine ⟨_, edges_eq (hubbard_channels (U : 𝕜) (mu : 𝕜)) n, edges_operator rfl n ?_ (hubbardH_herm U mu _)⟩
  obtain ⟨Ws, h1, _, _, h3⟩ := C56_hubbard (U : 𝕜) (mu : 𝕜) (n + 2) (by omega)
  have h2 : hubbard (U : 𝕜) (mu : 𝕜) (n + 2) = _ := edges_eq (hubbard_channels (U : 𝕜) (mu : 𝕜)) n
  rw [h2] at h1
  cases h1
  rw [h3, hubbardH_eq]

/-- A chain of `L` sites of `d` states, of norm one and canonical around site `oc`. -/
structure Start (L d oc : Nat) (s : List (Blk 𝕜)) : Prop where
  linked : Linked 3 (s.map Blk.dims)
  closed : Closed s
  phys : phys s = List.replicate L d
  inside : oc < L
  canon : Canonical s oc
  norm : Normalised (stateVec L d s)

/-- What a search without truncation returns. -/
structure Ground (L d : Nat) (H : Matrix (Fin L → Fin d) (Fin L → Fin d) 𝕜) (sites : List (Blk 𝕜)) (e : ℝ) (fin : List (Blk 𝕜))
    (log : List (Event (Blk 𝕜) ℝ)) : Prop where
  phys : phys fin = List.replicate L d
  norm : Normalised (stateVec L d fin)
  value : e = expectation H (stateVec L d fin)
  lower : e ≤ expectation H (stateVec L d sites)
  bound : ∀ E, Lowest H E → E ≤ e
  logged : ∀ n x s, Event.iteration n x s ∈ log → Normalised (stateVec L d s) ∧ x = expectation H (stateVec L d s) ∧ e ≤ x
  falling : ∀ n x s x' s', Event.iteration n x s ∈ log → Event.iteration (n + 1) x' s' ∈ log → x' ≤ x

/-- What a search from a random state returns, with bonds cut at `cutoff` and at most `maxB`. -/
structure Cold (L d : Nat) (H : Matrix (Fin L → Fin d) (Fin L → Fin d) 𝕜) (cutoff : ℝ) (minB maxB : Nat) (e : ℝ) (fin : List (Blk 𝕜))
    (log : List (Event (Blk 𝕜) ℝ)) : Prop where
  phys : phys fin = List.replicate L d
  norm : Normalised (stateVec L d fin)
  /-- the energy returned is that of the last iteration, and so is the energy of the state -/
  last : ∃ n s, Event.iteration n e s ∈ log ∧ (∀ n' x s', Event.iteration n' x s' ∈ log → n' ≤ n) ∧
    expectation H (stateVec L d fin) = expectation H (stateVec L d s)
  logged : ∀ n x s, Event.iteration n x s ∈ log → Normalised (stateVec L d s) ∧ (∀ o, o + 1 < s.length → bondAt s o ≤ max minB maxB) ∧
    (n ≠ 0 ∨ L ≠ 3 → ∀ E0 E1, Lowest H E0 → Highest H E1 → E0 ≤ x ∧ x ≤ E1 ∧
      ((∀ o, o + 1 < s.length → bondAt s o < maxB) → |x - expectation H (stateVec L d s)| ≤ (E1 - E0) * cutoff))

theorem Start.fit {L d oc : Nat} {H : Matrix (Fin L → Fin d) (Fin L → Fin d) 𝕜} {Ws s : List (Blk 𝕜)} (hO : Operator L d H Ws) (h : Start L d oc s) :
    Fit s Ws s := ⟨h.linked, hO.linked, h.linked, h.phys.trans hO.cols.symm, h.phys.trans hO.rows.symm⟩

theorem ground_run {L d : Nat} {H : Matrix (Fin L → Fin d) (Fin L → Fin d) 𝕜} {Ws : List (Blk 𝕜)} (hO : Operator L d H Ws) (hL : 2 ≤ L) (hsm : L < 2 ^ 63)
    (svd : Blk 𝕜 → Blk 𝕜 × Blk 𝕜 × Blk 𝕜) (svd1 : Blk 𝕜 → Nat → Blk 𝕜 × Blk 𝕜 × Blk 𝕜)
    (hsvd : ∀ X l s t r, X.dims = [l, s, t, r] → ∃ k, SvdPair X (svd X).1 (svd X).2.1 (svd X).2.2 l s t r k) (hsvd1 : SvdOk svd1)
    (sites : List (Blk 𝕜)) (oc : Nat) (hs : Start L d oc sites) (dflt : Res (Blk 𝕜)) (above : ℝ → ℝ → Bool) (e0 : ℝ) (maxIt : Nat) (hmax : 1 ≤ maxIt)
    (hreg : RegularRun (blkDmrg Ws svd) Ws (tours L (startPair L oc) maxIt) sites) :
    ∃ e fin oc' log, dmrg true (blkDmrg Ws svd) dflt above tooSmall (moveOcDense star svd1) e0 maxIt L sites oc = .ok (e, fin, oc', log) ∧
      Ground L d H sites e fin log := by
  have hlen : sites.length = L := by have := congrArg List.length hs.phys; simpa [Spec.phys] using this
  subst hlen
  obtain ⟨e, fin, oc', log, c1, c2, c3, c4, c5, c6, c7, c8⟩ := C74_descent_partial Ws sites svd svd1 hsvd hsvd1 (hs.fit hO) hs.closed hO.closed
    (by rw [hs.phys]; exact hermitianOp_of hO.matrix hO.herm) hL hsm oc hs.inside hs.canon ((normSq_eq hs.phys).2 hs.norm) dflt above e0 maxIt hmax hreg
  have hp := c2.trans hs.phys
  refine ⟨e, fin, oc', log, c1, hp, (normSq_eq hp).1 c3, ?_, ?_, ?_, ?_, c8⟩
  · rw [c4, energy_eq hp, hO.matrix]
  · rw [energy_eq hs.phys, hO.matrix] at c5
    exact c5
  · intro E hE
    exact c6 E (by rw [hs.phys]; exact boundedBelow_of hO.matrix (lowest_le hO.herm hE))
  · intro n x s hx
    obtain ⟨k0, k1, k2, k3, _⟩ := c7 n x s hx
    have hp' := k0.trans hs.phys
    exact ⟨(normSq_eq hp').1 k2, by rw [k1, energy_eq hp', hO.matrix], k3⟩

theorem cold_search {L d : Nat} {H : Matrix (Fin L → Fin d) (Fin L → Fin d) 𝕜} {Ws : List (Blk 𝕜)} (hO : Operator L d H Ws) (hL : 2 ≤ L) (hsm : L < 2 ^ 63)
    {fac : Blk 𝕜 → Blk 𝕜 × Blk 𝕜 × Blk 𝕜} (hfac : DenseSvd fac) {svd1 : Blk 𝕜 → Nat → Blk 𝕜 × Blk 𝕜 × Blk 𝕜} (hsvd1 : SvdOk svd1)
    (cutoff : ℝ) (hcut : 0 ≤ cutoff) (minB maxB : Nat) (hmin : 1 ≤ minB) (dflt : Res (Blk 𝕜)) (above : ℝ → ℝ → Bool) (e0 : ℝ) (maxIt : Nat) (hmax : 1 ≤ maxIt)
    (rnd : Nat → List Nat → 𝕜) :
    ∃ sites, randomFor minB Ws rnd = .ok sites ∧ phys sites = List.replicate L d ∧ (1e-15 ≤ normSq sites →
      RunAll (cutDmrg Ws fac cutoff minB maxB) (Ready Ws) (tours L 0 maxIt) sites →
      ∃ e fin oc' log, dmrgRandom Ws fac cutoff minB maxB dflt above tooSmall (moveOcDense star svd1) e0 maxIt rnd = .ok (e, fin, oc', log) ∧
        Cold L d H cutoff minB maxB e fin log) := by
  have hlen := hO.len
  obtain ⟨sites, h1, h2, h3⟩ := C96_dmrg_partial Ws hfac hsvd1 cutoff hcut minB maxB hmin hO.linked
    (fun W hW => by
      have h1 : W.dims.getD 1 0 ∈ Ws.map (fun W => W.dims.getD 1 0) := List.mem_map_of_mem hW
      have h3 : W.dims.getD 3 0 ∈ Ws.map (fun W => W.dims.getD 3 0) := List.mem_map_of_mem hW
      rw [hO.rows] at h1
      rw [hO.cols] at h3
      rw [(List.mem_replicate.1 h1).2, (List.mem_replicate.1 h3).2]) hO.closed
    (List.replicate L d) hO.cols.symm (hermitianOp_of hO.matrix hO.herm) (by omega) (by omega) dflt above e0 maxIt hmax rnd
  refine ⟨sites, h1, h2, fun hz hr => ?_⟩
  obtain ⟨e, fin, oc', log, c1, c2, c3, ⟨n, s, c4, c5, c6⟩, c7⟩ := h3 hz (by rw [hlen]; exact hr)
  have hps := (c7 n e s c4).2.1
  refine ⟨e, fin, oc', log, c1, c2, (normSq_eq c2).1 c3, ⟨n, s, c4, c5, ?_⟩, fun n x s hx => ?_⟩
  · rw [← hO.matrix, ← energy_eq c2, ← energy_eq hps, c6]
  · obtain ⟨k1, k2, k3, k4⟩ := c7 n x s hx
    rw [hlen] at k4
    refine ⟨(normSq_eq k2).1 k1, k3, fun hn E0 E1 hE0 hE1 => ?_⟩
    obtain ⟨q1, q2, q3⟩ := k4 hn
    have hlo := boundedBelow_of hO.matrix (lowest_le hO.herm hE0)
    have hhi := boundedAbove_of hO.matrix (le_highest hO.herm hE1)
    refine ⟨q1 _ hlo, q2 _ hhi, fun hb => ?_⟩
    rw [← hO.matrix, ← energy_eq k2]
    exact q3 hb _ _ hlo hhi

/-- **C112** (partial: without truncation, and every local update of the run must be `Regular`, see C73; it is not claimed that the energy
returned is the lowest, which is false of DMRG).  The search with the Heisenberg Hamiltonian of the library, from any chain of spins one half of
norm one that is canonical around its center: it returns, and its energy is the expectation value in the state returned of
`-J/4 ∑ (σx σx + σy σy + σz σz)`, at most that in the initial state, and at least the lowest eigenvalue of that matrix and so `(L - 1) min(-J/4, 3J/4)`. -/
theorem C112_heisenberg_partial (J : ℝ) (L : Nat) (hL : 2 ≤ L) (hsm : L < 2 ^ 63) :
    ∃ Ws : List (Blk 𝕜), heisenberg (J : 𝕜) L = .ok Ws ∧
      ∀ (svd : Blk 𝕜 → Blk 𝕜 × Blk 𝕜 × Blk 𝕜) (svd1 : Blk 𝕜 → Nat → Blk 𝕜 × Blk 𝕜 × Blk 𝕜),
        (∀ X l s t r, X.dims = [l, s, t, r] → ∃ k, SvdPair X (svd X).1 (svd X).2.1 (svd X).2.2 l s t r k) → SvdOk svd1 →
      ∀ (sites : List (Blk 𝕜)) (oc : Nat), Start L 2 oc sites → ∀ (dflt : Res (Blk 𝕜)) (above : ℝ → ℝ → Bool) (e0 : ℝ) (maxIt : Nat), 1 ≤ maxIt →
        RegularRun (blkDmrg Ws svd) Ws (tours L (startPair L oc) maxIt) sites →
      ∃ e fin oc' log, dmrg true (blkDmrg Ws svd) dflt above tooSmall (moveOcDense star svd1) e0 maxIt L sites oc = .ok (e, fin, oc', log) ∧
        Ground L 2 (heisenbergH J L) sites e fin log ∧ ((L : ℝ) - 1) * min (-J / 4) (3 * J / 4) ≤ e := by
  obtain ⟨Ws, h1, hO⟩ := heisenberg_operator (𝕜 := 𝕜) J L hL
  refine ⟨Ws, h1, fun svd svd1 hsvd hsvd1 sites oc hs dflt above e0 maxIt hmax hreg => ?_⟩
  obtain ⟨e, fin, oc', log, c1, c2⟩ := ground_run hO hL hsm svd svd1 hsvd hsvd1 sites oc hs dflt above e0 maxIt hmax hreg
  obtain ⟨E, hE⟩ := lowest_exists hO.herm
  exact ⟨e, fin, oc', log, c1, c2, (le_lowest hE (heisenbergH_bound J L (by omega))).trans (c2.bound E hE)⟩

/-- **C112** (partial: as `C112_heisenberg_partial`).  The same with the Hubbard Hamiltonian of the library, whose matrix is
`∑ (U n↑ n↓ - μ (n↑ + n↓)) + ∑ (c†_i c_{i+1} + c†_{i+1} c_i)` with the signs of fermions. -/
theorem C112_hubbard_partial (U mu : ℝ) (L : Nat) (hL : 2 ≤ L) (hsm : L < 2 ^ 63) :
    ∃ Ws : List (Blk 𝕜), hubbard (U : 𝕜) (mu : 𝕜) L = .ok Ws ∧
      ∀ (svd : Blk 𝕜 → Blk 𝕜 × Blk 𝕜 × Blk 𝕜) (svd1 : Blk 𝕜 → Nat → Blk 𝕜 × Blk 𝕜 × Blk 𝕜),
        (∀ X l s t r, X.dims = [l, s, t, r] → ∃ k, SvdPair X (svd X).1 (svd X).2.1 (svd X).2.2 l s t r k) → SvdOk svd1 →
      ∀ (sites : List (Blk 𝕜)) (oc : Nat), Start L 4 oc sites → ∀ (dflt : Res (Blk 𝕜)) (above : ℝ → ℝ → Bool) (e0 : ℝ) (maxIt : Nat), 1 ≤ maxIt →
        RegularRun (blkDmrg Ws svd) Ws (tours L (startPair L oc) maxIt) sites →
      ∃ e fin oc' log, dmrg true (blkDmrg Ws svd) dflt above tooSmall (moveOcDense star svd1) e0 maxIt L sites oc = .ok (e, fin, oc', log) ∧
        Ground L 4 (hubbardH U mu L) sites e fin log := by
  obtain ⟨Ws, h1, hO⟩ := hubbard_operator (𝕜 := 𝕜) U mu L hL
  exact ⟨Ws, h1, fun svd svd1 hsvd hsvd1 sites oc hs dflt above e0 maxIt hmax hreg =>
    ground_run hO hL hsm svd svd1 hsvd hsvd1 sites oc hs dflt above e0 maxIt hmax hreg⟩

/-- Both matrices have a lowest and a highest eigenvalue; those of the Heisenberg Hamiltonian are at most `(L - 1) |J|` apart. -/
theorem C112_spectrum (J U mu : ℝ) (L : Nat) (hL : 1 ≤ L) :
    (∃ E0 E1, Lowest (heisenbergH J L : Matrix _ _ 𝕜) E0 ∧ Highest (heisenbergH J L : Matrix _ _ 𝕜) E1 ∧
      ((L : ℝ) - 1) * min (-J / 4) (3 * J / 4) ≤ E0 ∧ E1 ≤ ((L : ℝ) - 1) * max (-J / 4) (3 * J / 4) ∧ E1 - E0 ≤ ((L : ℝ) - 1) * |J|) ∧
    ∃ E0 E1, Lowest (hubbardH U mu L : Matrix _ _ 𝕜) E0 ∧ Highest (hubbardH U mu L : Matrix _ _ 𝕜) E1 := by
  constructor
  · obtain ⟨E0, h0⟩ := lowest_exists (heisenbergH_herm (𝕜 := 𝕜) J L)
    obtain ⟨E1, h1⟩ := highest_exists (heisenbergH_herm (𝕜 := 𝕜) J L)
    have b0 := le_lowest h0 (heisenbergH_bound J L hL)
    have b1 : -(((L : ℝ) - 1) * max (-J / 4) (3 * J / 4)) ≤ -E1 := le_lowest (highest_neg.2 h1) fun v => by
      rw [expectation_neg]
      have := heisenbergH_above (𝕜 := 𝕜) J L hL v
      linarith
    refine ⟨E0, E1, h0, h1, b0, by linarith, ?_⟩
    have hm : max (-J / 4) (3 * J / 4) - min (-J / 4) (3 * J / 4) = |J| := by
      rw [max_sub_min_eq_abs, show 3 * J / 4 - -J / 4 = J by ring]
    rw [← hm, mul_sub]
    linarith
  · obtain ⟨E0, h0⟩ := lowest_exists (hubbardH_herm (𝕜 := 𝕜) U mu L)
    obtain ⟨E1, h1⟩ := highest_exists (hubbardH_herm (𝕜 := 𝕜) U mu L)
    exact ⟨E0, E1, h0, h1⟩

/-- **C112** (partial: for the chains a run meets see `Ready` of C96).  The search that is given the Heisenberg Hamiltonian of the library and draws
its own state, with truncation. -/
theorem C112_heisenberg_cold_partial (J : ℝ) (L : Nat) (hL : 2 ≤ L) (hsm : L < 2 ^ 63) :
    ∃ Ws : List (Blk 𝕜), heisenberg (J : 𝕜) L = .ok Ws ∧
      ∀ (fac : Blk 𝕜 → Blk 𝕜 × Blk 𝕜 × Blk 𝕜) (svd1 : Blk 𝕜 → Nat → Blk 𝕜 × Blk 𝕜 × Blk 𝕜), DenseSvd fac → SvdOk svd1 →
      ∀ (cutoff : ℝ) (minB maxB : Nat), 0 ≤ cutoff → 1 ≤ minB →
      ∀ (dflt : Res (Blk 𝕜)) (above : ℝ → ℝ → Bool) (e0 : ℝ) (maxIt : Nat) (rnd : Nat → List Nat → 𝕜), 1 ≤ maxIt →
      ∃ sites, randomFor minB Ws rnd = .ok sites ∧ phys sites = List.replicate L 2 ∧ (1e-15 ≤ normSq sites →
        RunAll (cutDmrg Ws fac cutoff minB maxB) (Ready Ws) (tours L 0 maxIt) sites →
        ∃ e fin oc' log, dmrgRandom Ws fac cutoff minB maxB dflt above tooSmall (moveOcDense star svd1) e0 maxIt rnd = .ok (e, fin, oc', log) ∧
          Cold L 2 (heisenbergH J L) cutoff minB maxB e fin log) := by
  obtain ⟨Ws, h1, hO⟩ := heisenberg_operator (𝕜 := 𝕜) J L hL
  exact ⟨Ws, h1, fun fac svd1 hfac hsvd1 cutoff minB maxB hcut hmin dflt above e0 maxIt rnd hmax =>
    cold_search hO hL hsm hfac hsvd1 cutoff hcut minB maxB hmin dflt above e0 maxIt hmax rnd⟩

/-- **C112** (partial: as `C112_heisenberg_cold_partial`).  The same with the Hubbard Hamiltonian of the library. -/
theorem C112_hubbard_cold_partial (U mu : ℝ) (L : Nat) (hL : 2 ≤ L) (hsm : L < 2 ^ 63) :
    ∃ Ws : List (Blk 𝕜), hubbard (U : 𝕜) (mu : 𝕜) L = .ok Ws ∧
      ∀ (fac : Blk 𝕜 → Blk 𝕜 × Blk 𝕜 × Blk 𝕜) (svd1 : Blk 𝕜 → Nat → Blk 𝕜 × Blk 𝕜 × Blk 𝕜), DenseSvd fac → SvdOk svd1 →
      ∀ (cutoff : ℝ) (minB maxB : Nat), 0 ≤ cutoff → 1 ≤ minB →
      ∀ (dflt : Res (Blk 𝕜)) (above : ℝ → ℝ → Bool) (e0 : ℝ) (maxIt : Nat) (rnd : Nat → List Nat → 𝕜), 1 ≤ maxIt →
      ∃ sites, randomFor minB Ws rnd = .ok sites ∧ phys sites = List.replicate L 4 ∧ (1e-15 ≤ normSq sites →
        RunAll (cutDmrg Ws fac cutoff minB maxB) (Ready Ws) (tours L 0 maxIt) sites →
        ∃ e fin oc' log, dmrgRandom Ws fac cutoff minB maxB dflt above tooSmall (moveOcDense star svd1) e0 maxIt rnd = .ok (e, fin, oc', log) ∧
          Cold L 4 (hubbardH U mu L) cutoff minB maxB e fin log) := by
  obtain ⟨Ws, h1, hO⟩ := hubbard_operator (𝕜 := 𝕜) U mu L hL
  exact ⟨Ws, h1, fun fac svd1 hfac hsvd1 cutoff minB maxB hcut hmin dflt above e0 maxIt rnd hmax =>
    cold_search hO hL hsm hfac hsvd1 cutoff hcut minB maxB hmin dflt above e0 maxIt hmax rnd⟩

end DM
end QuantiT
