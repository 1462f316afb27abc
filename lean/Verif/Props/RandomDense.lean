import Verif.Props.ColdStart
/-
The dense random MPS a DMRG without a starting state begins from, and that DMRG (C96).
-/
namespace QuantiT
namespace DM
open Finset Spec MP
variable {𝕜 : Type}

/-- **C96** (the random chain).  For every Hamiltonian with at least one site the random MPS returned has, at site `i`, the numbers drawn
for it, the physical dimension of the Hamiltonian, bonds of the size asked for and open ends of size one. -/
theorem C96_random (bond : Nat) (hb : 1 ≤ bond) (Ws : List (Blk 𝕜)) (rnd : Nat → List Nat → 𝕜) (hne : Ws ≠ [])
    (hr : ∀ W ∈ Ws, W.dims.length = 4) :
    ∃ sites, randomFor bond Ws rnd = .ok sites ∧ sites.length = Ws.length ∧ ∀ (i : Nat) (W : Blk 𝕜), Ws[i]? = some W →
      sites[i]? = some ⟨[if i = 0 then 1 else bond, W.dims.getD 3 0, if i + 1 = Ws.length then 1 else bond], rnd i⟩ := by
  have hmap : (Ws.mapM fun W => BT.orUb W.dims[3]?) = (.ok (Ws.map fun W => W.dims.getD 3 0) : Res (List Nat)) := by
    clear hne
    induction Ws with
    | nil => rfl
    | cons W Ws ih =>
      have h4 := hr W (by simp)
      rw [List.mapM_cons, ih fun V hV => hr V (by simp [hV]), List.getElem?_eq_getElem (show 3 < W.dims.length by omega)]
      simp [bind, Except.bind, BT.orUb, pure, Except.pure, List.getElem?_eq_getElem (show 3 < W.dims.length by omega)]
  have hlen : 0 < Ws.length := List.length_pos_iff.2 hne
  set ps := Ws.map fun W => W.dims.getD 3 0 with hps
  have hpl : ps.length = Ws.length := by simp [hps]
  unfold randomFor randomDense
  rw [hmap]
  simp only [bind, Except.bind]
  set out : List (Blk 𝕜) := ps.zipIdx.map fun p => ⟨[bond, p.1, bond], rnd p.2⟩ with hout
  have hol : out.length = Ws.length := by simp [hout, hpl]
  have hget : ∀ (i : Nat) (W : Blk 𝕜), Ws[i]? = some W → out[i]? = some ⟨[bond, W.dims.getD 3 0, bond], rnd i⟩ := by
    intro i W hW
    simp [hout, hps, hW]
  obtain ⟨W0, hW0⟩ : ∃ W, Ws[0]? = some W := ⟨_, List.getElem?_eq_getElem hlen⟩
  rw [hget 0 W0 hW0]
  simp only [BT.orUb]
  obtain ⟨W1, hW1⟩ : ∃ W, Ws[Ws.length - 1]? = some W := ⟨_, List.getElem?_eq_getElem (by omega)⟩
  rw [hpl]
  have hl : ∃ B : Blk 𝕜, (out.set 0 (chopFirst ⟨[bond, W0.dims.getD 3 0, bond], rnd 0⟩))[Ws.length - 1]? = some B ∧
      B.f = rnd (Ws.length - 1) ∧ B.dims = [if Ws.length - 1 = 0 then 1 else bond, W1.dims.getD 3 0, bond] := by
    by_cases h1 : Ws.length - 1 = 0
    · rw [h1] at hW1 ⊢
      rw [hW0] at hW1
      cases hW1
      rw [List.getElem?_set_self (by omega)]
      refine ⟨_, rfl, rfl, ?_⟩
      simp [chopFirst, Nat.min_eq_left hb]
    · rw [List.getElem?_set_ne (by omega), hget _ _ hW1, if_neg h1]
      exact ⟨_, rfl, rfl, rfl⟩
  obtain ⟨B, hB, hBf, hBd⟩ := hl
  rw [hB]
  refine ⟨_, rfl, by simp [hol], fun i W hW => ?_⟩
  have hi := (List.getElem?_eq_some_iff.1 hW).1
  by_cases h1 : i + 1 = Ws.length
  · have e : i = Ws.length - 1 := by omega
    rw [if_pos h1]
    subst e
    rw [hW1] at hW
    cases hW
    rw [List.getElem?_set_self (by simp [hol]; omega)]
    unfold chopLast
    rw [hBf, hBd]
    simp [Nat.min_eq_left hb]
  · rw [List.getElem?_set_ne (by omega), if_neg h1]
    by_cases h0 : i = 0
    · subst h0
      rw [hW0] at hW
      cases hW
      rw [List.getElem?_set_self (by omega)]
      simp [chopFirst, Nat.min_eq_left hb]
    · rw [List.getElem?_set_ne (by omega), hget i W hW, if_neg h0]

/-- **C96** (no sites).  A Hamiltonian without sites is undefined behaviour: the ends of an empty chain are written to. -/
theorem C96_empty (bond : Nat) (rnd : Nat → List Nat → 𝕜) : randomFor bond [] rnd = .error .ub := rfl

variable [RCLike 𝕜]

/-- So it is a closed chain that fits the Hamiltonian. -/
theorem random_fit {bond : Nat} {Ws sites : List (Blk 𝕜)} {rnd : Nat → List Nat → 𝕜} (hne : Ws ≠ [])
    (hop : Linked 4 (Ws.map Blk.dims)) (hsq : ∀ W ∈ Ws, W.dims.getD 1 0 = W.dims.getD 3 0) (hl : sites.length = Ws.length)
    (hs : ∀ (i : Nat) (W : Blk 𝕜), Ws[i]? = some W →
      sites[i]? = some ⟨[if i = 0 then 1 else bond, W.dims.getD 3 0, if i + 1 = Ws.length then 1 else bond], rnd i⟩) :
    Fit sites Ws sites ∧ Closed sites := by
  have hlen : 0 < Ws.length := List.length_pos_iff.2 hne
  have hget : ∀ (i : Nat) (A : Blk 𝕜), sites[i]? = some A → ∃ W, Ws[i]? = some W ∧
      A = ⟨[if i = 0 then 1 else bond, W.dims.getD 3 0, if i + 1 = Ws.length then 1 else bond], rnd i⟩ := by
    intro i A hA
    have hi := (List.getElem?_eq_some_iff.1 hA).1
    obtain ⟨W, hW⟩ : ∃ W, Ws[i]? = some W := ⟨_, List.getElem?_eq_getElem (by omega)⟩
    refine ⟨W, hW, ?_⟩
    rw [hs i W hW] at hA
    exact (Option.some.inj hA).symm
  have hphys : phys sites = Ws.map fun W => W.dims.getD 3 0 := by
    apply List.ext_getElem?
    intro i
    unfold phys
    rw [List.getElem?_map, List.getElem?_map]
    cases hW : Ws[i]? with
    | none =>
      have := List.getElem?_eq_none_iff.1 hW
      rw [List.getElem?_eq_none (by omega)]
      rfl
    | some W => rw [hs i W hW]; rfl
  have hk : Linked 3 (sites.map Blk.dims) := by
    constructor
    · intro d hd
      obtain ⟨A, hA, rfl⟩ := List.mem_map.1 hd
      obtain ⟨i, hi⟩ := List.mem_iff_getElem?.1 hA
      obtain ⟨W, _, rfl⟩ := hget i A hi
      rfl
    · intro i d d' h1 h2
      rw [List.getElem?_map] at h1 h2
      obtain ⟨A, hA, rfl⟩ := Option.map_eq_some_iff.1 h1
      obtain ⟨B, hB, rfl⟩ := Option.map_eq_some_iff.1 h2
      have hi := (List.getElem?_eq_some_iff.1 hB).1
      obtain ⟨_, _, rfl⟩ := hget i A hA
      obtain ⟨_, _, rfl⟩ := hget (i + 1) B hB
      simp
      omega
  refine ⟨⟨hk, hop, hk, hphys, ?_⟩, ?_, ?_⟩
  · rw [hphys]
    exact List.map_congr_left fun W hW => (hsq W hW).symm
  · obtain ⟨W, hW⟩ : ∃ W, Ws[0]? = some W := ⟨_, List.getElem?_eq_getElem hlen⟩
    have := hs 0 W hW
    unfold leftEnd
    rw [List.head?_eq_getElem?, this]
    rfl
  · obtain ⟨W, hW⟩ : ∃ W, Ws[Ws.length - 1]? = some W := ⟨_, List.getElem?_eq_getElem (by omega)⟩
    have := hs _ W hW
    unfold rightEnd
    rw [List.getLast?_eq_getElem?, hl, this]
    simp [show Ws.length - 1 + 1 = Ws.length by omega]

/-- **C96** (partial: for the chains a run meets see `Ready`; nothing is said about how likely the numbers drawn meet it).  The dense DMRG that is
given a Hamiltonian and no state: it draws a chain that fits the Hamiltonian and, unless the norm of that chain is too small, returns; the
state returned has norm one and the physical dimensions of the Hamiltonian; the energy returned is the one of the last iteration logged,
whose state has the energy of the state returned; of every iteration logged the state has norm one and no bond larger than
allowed; and, but for the first iteration on three sites, the energy logged lies within every bounds of the spectrum and, if
the maximum of the bond is not reached, is that of the state up to the width of the spectrum times the cutoff. -/
theorem C96_dmrg_partial (Ws : List (Blk 𝕜)) {fac : Blk 𝕜 → Blk 𝕜 × Blk 𝕜 × Blk 𝕜} (hfac : DenseSvd fac)
    {svd1 : Blk 𝕜 → Nat → Blk 𝕜 × Blk 𝕜 × Blk 𝕜} (hsvd1 : SvdOk svd1) (cutoff : ℝ) (hcut : 0 ≤ cutoff) (minB maxB : Nat) (hmin : 1 ≤ minB)
    (hop : Linked 4 (Ws.map Blk.dims)) (hsq : ∀ W ∈ Ws, W.dims.getD 1 0 = W.dims.getD 3 0) (hcW : Closed Ws)
    (ds : List Nat) (hds : ds = Ws.map fun W => W.dims.getD 3 0) (hH : HermitianOp Ws ds)
    (h2 : 2 ≤ Ws.length) (hsm : Ws.length < 2 ^ 63)
    (dflt : Res (Blk 𝕜)) (above : ℝ → ℝ → Bool) (e0 : ℝ) (maxIt : Nat) (hmax : 1 ≤ maxIt) (rnd : Nat → List Nat → 𝕜) :
    ∃ sites, randomFor minB Ws rnd = .ok sites ∧ phys sites = ds ∧ (1e-15 ≤ normSq sites →
      RunAll (cutDmrg Ws fac cutoff minB maxB) (Ready Ws) (tours Ws.length 0 maxIt) sites →
      ∃ e fin oc' log, dmrgRandom Ws fac cutoff minB maxB dflt above tooSmall (moveOcDense star svd1) e0 maxIt rnd = .ok (e, fin, oc', log) ∧
        phys fin = ds ∧ normSq fin = 1 ∧
        (∃ n s, Event.iteration n e s ∈ log ∧ (∀ n' x s', Event.iteration n' x s' ∈ log → n' ≤ n) ∧ energy Ws fin = energy Ws s) ∧
        ∀ n x s, Event.iteration n x s ∈ log → normSq s = 1 ∧ phys s = ds ∧
          (∀ o, o + 1 < s.length → bondAt s o ≤ max minB maxB) ∧
          (n ≠ 0 ∨ Ws.length ≠ 3 →
            (∀ lo, BoundedBelow Ws ds lo → lo ≤ x) ∧ (∀ hi, BoundedAbove Ws ds hi → x ≤ hi) ∧
            ((∀ o, o + 1 < s.length → bondAt s o < maxB) → ∀ lo hi, BoundedBelow Ws ds lo → BoundedAbove Ws ds hi →
              |x - energy Ws s| ≤ (hi - lo) * cutoff))) := by
  have hne : Ws ≠ [] := by rintro rfl; simp at h2
  obtain ⟨sites, h1, hl, hs⟩ := C96_random minB hmin Ws rnd hne fun W hW => hop.1 _ (List.mem_map_of_mem hW)
  obtain ⟨hF, hc⟩ := random_fit hne hop hsq hl hs
  have hp : phys sites = ds := hF.cols.trans hds.symm
  refine ⟨sites, h1, hp, fun hz hreg => ?_⟩
  have h := C96_run_partial Ws sites hfac hsvd1 cutoff hcut minB maxB hmin hF hc hcW (by rw [hp]; exact hH) (by omega) (by omega) hz dflt above e0
    maxIt hmax (by rw [hl]; exact hreg)
  unfold dmrgRandom
  rw [h1]
  simp only [bind, Except.bind]
  rw [hl, hp] at h
  exact h

end DM
end QuantiT
