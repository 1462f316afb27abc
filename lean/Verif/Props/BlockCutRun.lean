import Verif.Props.BlockCutUpdate
import Verif.Props.BlockDescent
import Verif.Props.CutRun
/-
Whole runs of the block DMRG with truncation (C97).
-/
namespace QuantiT.BN
open Spec BT MP Finset
variable {G 𝕜 : Type} [RCLike 𝕜]

/-- What a run with truncation keeps. -/
structure SemiGoodB [AddCommGroup G] (Ws s0 s : List (BT G 𝕜)) (c : Nat) : Prop where
  fit : BlockFit s Ws s
  outer : SameOuter s0 s
  closed : Closed (s.map denseOf)
  canon : SemiCanonical (s.map denseOf) c
  norm : normSq (s.map denseOf) = 1

/-- The update at the pair `o`, `o + 1` uses fewer than `maxB` elements of the new bond. -/
def RoomB {E : Type} (d : Dmrg (BT G 𝕜) E ℝ) (maxB : Nat) (o : Nat) (s : List (BT G 𝕜)) : Prop :=
  ∀ f r, d.fresh o f s = .ok r → usedBond (r.2.map denseOf) o < maxB

/-- What an update does, for the analysis of runs. -/
structure CutStepB (Ws : List (Blk 𝕜)) (ds : List Nat) (eps cutoff : ℝ) (minB maxB : Nat) (o : Nat) (s : List (BT G 𝕜)) (x : ℝ) (s' : List (BT G 𝕜)) : Prop where
  trunc : ∃ v w, x = vecEnergy Ws ds v ∧ BlockTruncation ds v (s.map denseOf) (s'.map denseOf) o eps cutoff minB maxB w ∧
    ∀ lo hi, BoundedBelow Ws ds lo → BoundedAbove Ws ds hi → |x - energy Ws (s'.map denseOf)| ≤ (hi - lo) * √w
  lower : x ≤ energy Ws (s.map denseOf)
  width : ∀ lo hi, BoundedBelow Ws ds lo → BoundedAbove Ws ds hi → lo ≤ hi

/-- What both theorems about runs use. -/
theorem cut_runB [AddCommGroup G] [LinearOrder G] (late : Bool) (Ws sites : List (BT G 𝕜))
    {fac : Blk 𝕜 → Blk 𝕜 × Blk 𝕜 × Blk 𝕜} (hfac : DenseSvd fac) (eps cutoff : ℝ) (he0 : 0 < eps) (he1 : eps ≤ 1 / 2) (hcut : 0 ≤ cutoff)
    (minB maxB : Nat) (hmin : 1 ≤ minB ∨ cutoff < 1 ∧ 1 ≤ maxB)
    (hF : BlockFit sites Ws sites) (hpW : AllPositive Ws) (hc : Closed (sites.map denseOf)) (hcW : Closed (Ws.map denseOf))
    (hl : late = false ∨ chargeAt (leftDim Ws) 0 = 0 ∧ chargeAt (rightDim Ws) 0 = 0) (hr : Neutral Ws)
    (hH : HermitianOp (Ws.map denseOf) (phys (sites.map denseOf))) (h2 : 2 ≤ sites.length) (hsm : sites.length < 2 ^ 63)
    (oc : Nat) (ho : oc < sites.length) (hcan : SemiCanonical (sites.map denseOf) oc) (hn : normSq (sites.map denseOf) = 1)
    (dflt : Res (BT G 𝕜)) (above : ℝ → ℝ → Bool) (zeroNorm : List (BT G 𝕜) → Bool)
    (moveOc : List (BT G 𝕜) → Nat → Nat → Res (List (BT G 𝕜) × Nat)) (e0 : ℝ) (maxIt : Nat) (hmax : 1 ≤ maxIt)
    (P : Nat → List (BT G 𝕜) → Prop) (hP : ∀ o s, P o s → CutAdmissible late Ws sites fac eps cutoff minB maxB o s)
    (hreg : DM.RunAll (cutDmrgB late Ws fac eps cutoff minB maxB sites) P
      (DM.tours sites.length (startPair sites.length oc) maxIt) sites) :
    ∃ e fin log, ∃ h : List (ℝ × List (BT G 𝕜)), DM.dmrg false (cutDmrgB late Ws fac eps cutoff minB maxB sites) dflt above zeroNorm moveOc e0
        maxIt sites.length sites oc = .ok (e, fin, startPair sites.length oc, log) ∧
      h[0]? = some (e0, sites) ∧ 2 ≤ h.length ∧ h[h.length - 1]? = some (e, fin) ∧
      (∀ (k : Nat) (x : ℝ × List (BT G 𝕜)), h[k]? = some x → ∃ c, (startPair sites.length oc = c ∨ startPair sites.length oc + 1 = c) ∧
        SemiGoodB Ws sites x.2 c) ∧
      (∀ (k : Nat) (x y : ℝ × List (BT G 𝕜)), h[k]? = some x → h[k + 1]? = some y → DM.Walk (fun o f s x s' =>
          CutStepB (Ws.map denseOf) (phys (sites.map denseOf)) eps cutoff minB maxB o s x s' ∧
            (cutDmrgB late Ws fac eps cutoff minB maxB sites).fresh o f s = .ok (x, s') ∧ P o s)
        (tour sites.length (startPair sites.length oc)) x.2 none (some y.1) y.2) ∧
      (∀ n x s, Event.iteration n x s ∈ log ↔ h[n + 1]? = some (x, s)) := by
  have hne : sites ≠ [] := by rintro rfl; simp at h2
  have hst := startChain_self hF.ket hne hc hn
  have hL : DM.Steps (cutDmrgB late Ws fac eps cutoff minB maxB sites) P (SemiGoodB Ws sites) (fun o f s x s' =>
          CutStepB (Ws.map denseOf) (phys (sites.map denseOf)) eps cutoff minB maxB o s x s' ∧
            (cutDmrgB late Ws fac eps cutoff minB maxB sites).fresh o f s = .ok (x, s') ∧ P o s) sites.length := by
    intro s c o f hg hoc hin hp
    have hph := SameOuter.phys_dense hg.outer
    obtain ⟨x, s', v, w, a1, a2, a3, a4, a5, a6, a7, a8, a9, _, _, b1⟩ := C97_update_partial late Ws sites s hfac eps cutoff he0 he1 hcut minB maxB hmin
      o f hg.fit ⟨hst.nonempty, hst.chained, hst.positive, hg.outer.left.symm, hg.outer.right.symm⟩ hpW hg.closed hcW hl hr
      (by rw [hph]; exact hH) (by rw [SameOuter.length_eq hg.outer]; exact hin)
      (DM.semiCanonical_pair hg.canon (by omega)) hg.norm (hP o s hp)
    rw [hph] at a7 a8 b1
    refine ⟨x, s', a1, ⟨a2, SameOuter.trans hg.outer a3, a4, a5, a6⟩, ⟨⟨v, w, a7, a8, b1⟩, a9, fun lo hi h1 h2 => ?_⟩, a1, hp⟩
    have h := (h1 v).trans (h2 v)
    have hn := a8.norm
    unfold vecNormSq at hn
    rw [hn] at h
    linarith
  obtain ⟨e, fin, oc', log, s, h, a1, a2, a3, a4, a5, a6, a7, a8, a9⟩ := DM.dmrg_steps hL h2 hsm oc ho ⟨hF, SameOuter.refl _, hc, hcan, hn⟩ false dflt above
    zeroNorm (by simp) moveOc (by simp) e0 maxIt hmax hreg
  unfold DM.Finish at a6
  rw [if_neg (by simp)] at a6
  obtain ⟨rfl, rfl⟩ := a6
  exact ⟨e, _, log, h, a1, a2, a3, a5, a7, a8, a9⟩

/-- **C97** (partial: every local update of the run must be one of those the theorem above speaks of).  A whole run of the block DMRG with
its truncated SVD, for every hermitian Hamiltonian that is a block chain leaving the charge unchanged, every normalised block
chain of two sites or more that is canonical around its center apart from unused elements of its bonds, every cutoff, every
limits of the bond with a minimum of at least one, every limit on the number of sweeps and every convergence criterion: it
returns; the chain returned is the one of the last iteration logged and so is the energy; and of every iteration logged, the
chain conserves the charge rules, with the outer dimensions and total rule of the initial one; it has norm one and is
canonical, apart from unused elements, around the site reported or the one after it (see C51); the energy lies within every
bounds of the spectrum; and if every bond uses less than the maximum, it is the energy of the chain up to the width of the
spectrum times the cutoff. -/
theorem C97_run_partial [AddCommGroup G] [LinearOrder G] (late : Bool) (Ws sites : List (BT G 𝕜))
    {fac : Blk 𝕜 → Blk 𝕜 × Blk 𝕜 × Blk 𝕜} (hfac : DenseSvd fac) (eps cutoff : ℝ) (he0 : 0 < eps) (he1 : eps ≤ 1 / 2) (hcut : 0 ≤ cutoff)
    (minB maxB : Nat) (hmin : 1 ≤ minB ∨ cutoff < 1 ∧ 1 ≤ maxB)
    (hF : BlockFit sites Ws sites) (hpW : AllPositive Ws) (hc : Closed (sites.map denseOf)) (hcW : Closed (Ws.map denseOf))
    (hl : late = false ∨ chargeAt (leftDim Ws) 0 = 0 ∧ chargeAt (rightDim Ws) 0 = 0) (hr : Neutral Ws)
    (hH : HermitianOp (Ws.map denseOf) (phys (sites.map denseOf))) (h2 : 2 ≤ sites.length) (hsm : sites.length < 2 ^ 63)
    (oc : Nat) (ho : oc < sites.length) (hcan : SemiCanonical (sites.map denseOf) oc) (hn : normSq (sites.map denseOf) = 1)
    (dflt : Res (BT G 𝕜)) (above : ℝ → ℝ → Bool) (zeroNorm : List (BT G 𝕜) → Bool)
    (moveOc : List (BT G 𝕜) → Nat → Nat → Res (List (BT G 𝕜) × Nat)) (e0 : ℝ) (maxIt : Nat) (hmax : 1 ≤ maxIt)
    (hreg : DM.RunAll (cutDmrgB late Ws fac eps cutoff minB maxB sites) (CutAdmissible late Ws sites fac eps cutoff minB maxB)
      (DM.tours sites.length (startPair sites.length oc) maxIt) sites) :
    ∃ e fin log, DM.dmrg false (cutDmrgB late Ws fac eps cutoff minB maxB sites) dflt above zeroNorm moveOc e0 maxIt sites.length sites oc
        = .ok (e, fin, startPair sites.length oc, log) ∧
      (∃ n, Event.iteration n e fin ∈ log ∧ ∀ n' x s', Event.iteration n' x s' ∈ log → n' ≤ n) ∧
      ∀ n x s, Event.iteration n x s ∈ log → BlockFit s Ws s ∧ SameOuter sites s ∧ normSq (s.map denseOf) = 1 ∧
        (SemiCanonical (s.map denseOf) (startPair sites.length oc) ∨ SemiCanonical (s.map denseOf) (startPair sites.length oc + 1)) ∧
        (∀ lo, BoundedBelow (Ws.map denseOf) (phys (sites.map denseOf)) lo → lo ≤ x) ∧
        (∀ hi, BoundedAbove (Ws.map denseOf) (phys (sites.map denseOf)) hi → x ≤ hi) ∧
        ((∀ o, o + 1 < s.length → usedBond (s.map denseOf) o < maxB) →
          ∀ lo hi, BoundedBelow (Ws.map denseOf) (phys (sites.map denseOf)) lo → BoundedAbove (Ws.map denseOf) (phys (sites.map denseOf)) hi →
          |x - energy (Ws.map denseOf) (s.map denseOf)| ≤ (hi - lo) * cutoff) := by
  have hq : startPair sites.length oc + 2 ≤ sites.length := by unfold startPair; split <;> omega
  obtain ⟨e, fin, log, h, a1, a2, a3, a5, a7, a8, a9⟩ := cut_runB late Ws sites hfac eps cutoff he0 he1 hcut minB maxB hmin hF hpW hc hcW hl hr hH h2
    hsm oc ho hcan hn dflt above zeroNorm moveOc e0 maxIt hmax _ (fun _ _ h => h) hreg
  refine ⟨e, fin, log, a1, ⟨h.length - 2, ?_, ?_⟩, ?_⟩
  · rw [a9, show h.length - 2 + 1 = h.length - 1 by omega]
    exact a5
  · intro n' x s' hm
    have := (List.getElem?_eq_some_iff.1 ((a9 _ _ _).1 hm)).1
    omega
  · intro n x s1 hm
    have hx := (a9 _ _ _).1 hm
    have hlt := (List.getElem?_eq_some_iff.1 hx).1
    obtain ⟨c, hcc, hg⟩ := a7 _ _ hx
    simp only at hg
    have hlen : s1.length = sites.length := SameOuter.length_eq hg.outer
    obtain ⟨y, hy⟩ : ∃ y, h[n]? = some y := ⟨_, List.getElem?_eq_getElem (by omega)⟩
    have hw := a8 n y _ hy hx
    simp only at hw
    obtain ⟨o, f, s0, x', hmem, hxx, hQ, _⟩ := DM.walk_last hw (DM.tour_ne sites.length _ h2)
    cases hxx
    obtain ⟨v, w, t1, t2, t3⟩ := hQ.trunc
    obtain ⟨v1, v2⟩ := DM.vec_bounds (Ws := Ws.map denseOf) t2.norm
    refine ⟨hg.fit, hg.outer, hg.norm, ?_, fun lo hlo => by rw [t1]; exact v1 lo hlo, fun hi hhi => by rw [t1]; exact v2 hi hhi, ?_⟩
    · rcases hcc with rfl | rfl
      · exact .inl hg.canon
      · exact .inr hg.canon
    · intro hroom lo hi hlo hhi
      have ho' := DM.tour_inside sites.length _ h2 hq _ hmem
      have hwle := t2.small (hroom o (by rw [hlen]; exact ho'))
      refine (t3 lo hi hlo hhi).trans ?_
      have h1 : √w ≤ cutoff := by
        rw [← Real.sqrt_sq hcut]
        exact Real.sqrt_le_sqrt hwle
      have h2 := hQ.width lo hi hlo hhi
      exact mul_le_mul_of_nonneg_left h1 (by linarith)

/-- **C97** (partial, as above).  If moreover no update of the run uses the maximum of the bond, energies go down up to the truncation:
with `ε` the width of the spectrum times the cutoff, the energy returned is that of the chain returned up to `ε`; after `n + 1`
sweeps the energy of the chain is at most the initial one plus `ε` for each update made; and the energy logged exceeds the one
before by at most `ε` for each update of a sweep.  Without cutoff these are the energies of the chains and never increase. -/
theorem C97_energy_partial [AddCommGroup G] [LinearOrder G] (late : Bool) (Ws sites : List (BT G 𝕜))
    {fac : Blk 𝕜 → Blk 𝕜 × Blk 𝕜 × Blk 𝕜} (hfac : DenseSvd fac) (eps cutoff : ℝ) (he0 : 0 < eps) (he1 : eps ≤ 1 / 2) (hcut : 0 ≤ cutoff)
    (minB maxB : Nat) (hmin : 1 ≤ minB ∨ cutoff < 1 ∧ 1 ≤ maxB)
    (hF : BlockFit sites Ws sites) (hpW : AllPositive Ws) (hc : Closed (sites.map denseOf)) (hcW : Closed (Ws.map denseOf))
    (hl : late = false ∨ chargeAt (leftDim Ws) 0 = 0 ∧ chargeAt (rightDim Ws) 0 = 0) (hr : Neutral Ws)
    (hH : HermitianOp (Ws.map denseOf) (phys (sites.map denseOf))) (h2 : 2 ≤ sites.length) (hsm : sites.length < 2 ^ 63)
    (oc : Nat) (ho : oc < sites.length) (hcan : SemiCanonical (sites.map denseOf) oc) (hn : normSq (sites.map denseOf) = 1)
    (dflt : Res (BT G 𝕜)) (above : ℝ → ℝ → Bool) (zeroNorm : List (BT G 𝕜) → Bool)
    (moveOc : List (BT G 𝕜) → Nat → Nat → Res (List (BT G 𝕜) × Nat)) (e0 : ℝ) (maxIt : Nat) (hmax : 1 ≤ maxIt)
    (hreg : DM.RunAll (cutDmrgB late Ws fac eps cutoff minB maxB sites) (fun o s => CutAdmissible late Ws sites fac eps cutoff minB maxB o s ∧
        RoomB (cutDmrgB late Ws fac eps cutoff minB maxB sites) maxB o s)
      (DM.tours sites.length (startPair sites.length oc) maxIt) sites)
    (lo hi : ℝ) (hlo : BoundedBelow (Ws.map denseOf) (phys (sites.map denseOf)) lo) (hhi : BoundedAbove (Ws.map denseOf) (phys (sites.map denseOf)) hi) :
    ∃ e fin log, DM.dmrg false (cutDmrgB late Ws fac eps cutoff minB maxB sites) dflt above zeroNorm moveOc e0 maxIt sites.length sites oc
        = .ok (e, fin, startPair sites.length oc, log) ∧
      |e - energy (Ws.map denseOf) (fin.map denseOf)| ≤ (hi - lo) * cutoff ∧
      (∀ n x s, Event.iteration n x s ∈ log → |x - energy (Ws.map denseOf) (s.map denseOf)| ≤ (hi - lo) * cutoff ∧
        energy (Ws.map denseOf) (s.map denseOf) ≤ energy (Ws.map denseOf) (sites.map denseOf)
          + (n + 1) * (tour sites.length (startPair sites.length oc)).length * ((hi - lo) * cutoff)) ∧
      (∀ n x s x' s', Event.iteration n x s ∈ log → Event.iteration (n + 1) x' s' ∈ log →
        x' ≤ x + (tour sites.length (startPair sites.length oc)).length * ((hi - lo) * cutoff)) := by
  obtain ⟨e, fin, log, h, a1, a2, a3, a5, a7, a8, a9⟩ := cut_runB late Ws sites hfac eps cutoff he0 he1 hcut minB maxB hmin hF hpW hc hcW hl hr hH h2
    hsm oc ho hcan hn dflt above zeroNorm moveOc e0 maxIt hmax _ (fun _ _ h => h.1) hreg
  have hQ : ∀ o f (s : List (BT G 𝕜)) x s', (CutStepB (Ws.map denseOf) (phys (sites.map denseOf)) eps cutoff minB maxB o s x s' ∧
      (cutDmrgB late Ws fac eps cutoff minB maxB sites).fresh o f s = .ok (x, s')
      ∧ CutAdmissible late Ws sites fac eps cutoff minB maxB o s ∧ RoomB (cutDmrgB late Ws fac eps cutoff minB maxB sites) maxB o s) →
      x ≤ energy (Ws.map denseOf) (s.map denseOf) ∧ |x - energy (Ws.map denseOf) (s'.map denseOf)| ≤ (hi - lo) * cutoff := by
    rintro o f s x s' ⟨q1, q2, q3, q4⟩
    refine ⟨q1.lower, ?_⟩
    obtain ⟨v, w, t1, t2, t3⟩ := q1.trunc
    refine (t3 lo hi hlo hhi).trans ?_
    have h1 : √w ≤ cutoff := by
      rw [← Real.sqrt_sq hcut]
      exact Real.sqrt_le_sqrt (t2.small (q4 f _ q2))
    have h2 := q1.width lo hi hlo hhi
    exact mul_le_mul_of_nonneg_left h1 (by linarith)
  have hnxt : ∀ (k : Nat) (x y : ℝ × List (BT G 𝕜)), h[k]? = some x → h[k + 1]? = some y → _ := fun k x y hx hy =>
    DM.walk_energy (en := fun s => energy (Ws.map denseOf) (s.map denseOf)) hQ (a8 k x y hx hy)
  have hne := DM.tour_ne sites.length (startPair sites.length oc) h2
  have hen : ∀ (k : Nat) (x : ℝ × List (BT G 𝕜)), h[k]? = some x →
      energy (Ws.map denseOf) (x.2.map denseOf) ≤ energy (Ws.map denseOf) (sites.map denseOf)
        + k * (tour sites.length (startPair sites.length oc)).length * ((hi - lo) * cutoff) := by
    intro k
    induction k with
    | zero => intro x hx; rw [a2] at hx; cases hx; simp
    | succ k ih =>
      intro x hx
      have hk := (List.getElem?_eq_some_iff.1 hx).1
      obtain ⟨y, hy⟩ : ∃ y, h[k]? = some y := ⟨_, List.getElem?_eq_getElem (by omega)⟩
      have h1 := ih y hy
      have h2 := (hnxt k y x hy hx).1
      push_cast
      linarith
  have habs : ∀ (k : Nat) (x : ℝ × List (BT G 𝕜)), 0 < k → h[k]? = some x →
      |x.1 - energy (Ws.map denseOf) (x.2.map denseOf)| ≤ (hi - lo) * cutoff := by
    intro k x hk0 hx
    have hk := (List.getElem?_eq_some_iff.1 hx).1
    obtain ⟨y, hy⟩ : ∃ y, h[k - 1]? = some y := ⟨_, List.getElem?_eq_getElem (by omega)⟩
    exact ((hnxt (k - 1) y x hy (by rw [show k - 1 + 1 = k by omega]; exact hx)).2 x.1 hne rfl).2
  refine ⟨e, fin, log, a1, ?_, ?_, ?_⟩
  · exact habs _ _ (by omega) a5
  · intro n x s1 hm
    have hx := (a9 _ _ _).1 hm
    have h2 := hen _ _ hx
    push_cast at h2
    exact ⟨habs _ _ (by omega) hx, h2⟩
  · intro n x s1 x' s1' hm hm'
    have hx := (a9 _ _ _).1 hm
    have hx' := (a9 _ _ _).1 hm'
    have h1 := ((hnxt (n + 1) _ _ hx hx').2 x' hne rfl).1
    have h2 := abs_le.1 (habs _ _ (by omega) hx)
    simp only at h1 h2
    have h3 : ((tour sites.length (startPair sites.length oc)).length - 1 : ℝ) * ((hi - lo) * cutoff)
        = (tour sites.length (startPair sites.length oc)).length * ((hi - lo) * cutoff) - (hi - lo) * cutoff := by ring
    rw [h3] at h1
    linarith

end QuantiT.BN
