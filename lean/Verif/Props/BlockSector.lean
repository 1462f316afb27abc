import Verif.Lemmas.BlockSector2
import Verif.Props.BlockCutRun
/-
C103: the block DMRG stays in its sector of conserved quantities.
-/
namespace QuantiT.BN
open Spec BT MP Finset
variable {G 𝕜 : Type} [RCLike 𝕜]

/-- What is asked of an update: its truncated factors have their blocks in order (see `Orderly`), and there are fewer sections than an index can
count.  The first holds if the truncation keeps a value of the section of the last block of either factor, in particular if it empties none. -/
structure CutCountable [AddCommGroup G] [LinearOrder G] (late : Bool) (Ws s0 : List (BT G 𝕜)) (fac : Blk 𝕜 → Blk 𝕜 × Blk 𝕜 × Blk 𝕜) (eps cutoff : ℝ)
    (minB maxB : Nat) (o : Nat) (s : List (BT G 𝕜)) : Prop where
  orderly : ∀ t l c c' r, NewPair late Ws s0 s o t → t.shape = [l, c, c', r] → Conserving t.shape t.rule t.blocks → (∀ d ∈ t.shape, 0 < dimSize d) →
    Orderly fac eps cutoff minB maxB t 2
  few : ∀ A, s[o]? = some A → ((A.shape.take 2).map List.length).prod < 2 ^ 63

theorem LastKept.countable [AddCommGroup G] [LinearOrder G] {late : Bool} {Ws s0 : List (BT G 𝕜)} {fac : Blk 𝕜 → Blk 𝕜 × Blk 𝕜 × Blk 𝕜} (hfac : DenseSvd fac)
    {eps cutoff : ℝ} {minB maxB o : Nat} {s : List (BT G 𝕜)} (h : ∀ t, NewPair late Ws s0 s o t → LastKept fac eps cutoff minB maxB t 2)
    (few : ∀ A, s[o]? = some A → ((A.shape.take 2).map List.length).prod < 2 ^ 63) : CutCountable late Ws s0 fac eps cutoff minB maxB o s :=
  ⟨fun t l c c' r ht hs hc hz => LastKept.orderly hfac (ds1 := [l, c]) (ds2 := [c', r]) hs (by simp) (by simp) hc hz (h t ht), few⟩

/-- What every update keeps. -/
structure InSector [AddCommGroup G] (Ws s0 s : List (BT G 𝕜)) : Prop where
  fit : BlockFit s Ws s
  outer : SameOuter s0 s
  positive : AllPositive s

theorem sector_update [AddCommGroup G] [LinearOrder G] (late : Bool) (Ws s0 s : List (BT G 𝕜))
    {fac : Blk 𝕜 → Blk 𝕜 × Blk 𝕜 × Blk 𝕜} (hfac : DenseSvd fac) (eps cutoff : ℝ)
    (minB maxB : Nat) (o : Nat) (fwd : Bool) (h0 : StartChain s0 s) (hpW : AllPositive Ws)
    (hc : Closed (s.map denseOf)) (hcW : Closed (Ws.map denseOf))
    (hl : late = false ∨ chargeAt (leftDim Ws) 0 = 0 ∧ chargeAt (rightDim Ws) 0 = 0) (hr : Neutral Ws) (ho : o + 1 < s.length)
    (hadm : CutCountable late Ws s0 fac eps cutoff minB maxB o s) (hF : BlockFit s Ws s) (hp : AllPositive s)
    {r : ℝ × List (BT G 𝕜)} (hrun : (cutDmrgB late Ws fac eps cutoff minB maxB s0).fresh o fwd s = .ok r) :
    BlockFit r.2 Ws r.2 ∧ SameOuter s r.2 ∧ AllPositive r.2 := by
  obtain ⟨A, B, W1, W2, L, Rt, Le, Re, H2, q, le, re, h2, ψ, l, c, k, k', c', d, N, S⟩ :=
    update_setup late Ws s0 s (fun t => svdCutB fac eps t 2 cutoff minB maxB fun x => x ^ 2) o hF h0 hpW hc hcW hl hr ho
  obtain ⟨N5, a0, a1⟩ := twoSitesUpdateB_shape S.fit
  unfold Dmrg.fresh at hrun
  rw [S.gA, S.gB] at hrun
  simp only at hrun
  cases hu : (cutDmrgB late Ws fac eps cutoff minB maxB s0).upd fwd o ((cutDmrgB late Ws fac eps cutoff minB maxB s0).left s o)
      ((cutDmrgB late Ws fac eps cutoff minB maxB s0).right s (o + 2)) A B with
  | error e => rw [hu] at hrun; cases hrun
  | ok x =>
    obtain ⟨E, A', B'⟩ := x
    rw [hu] at hrun
    cases hrun
    have hu' := hu
    unfold cutDmrgB at hu'
    rw [S.left, S.right] at hu'
    obtain ⟨M, hM⟩ := settle_inv hu'
    set F := max M (max N N5) with hFd
    have hM := hM F (by omega)
    obtain ⟨y1, y2, y3, y4, y5⟩ := S.runs F (by omega)
    unfold updB at hM
    rw [y2, S.gW1, S.gW2] at hM
    simp only [andThen, andNext, orUb] at hM
    rw [y5] at hM
    simp only at hM
    cases ht : twoSitesUpdateB F q H2 Le Re with
    | none => rw [ht] at hM; cases hM
    | some res =>
      rw [ht] at hM
      cases res with
      | error e => cases hM
      | ok ep =>
        obtain ⟨e, t⟩ := ep
        obtain ⟨b1, b2, b3⟩ := a1 F (by omega) e t ht
        have htidy := fun l c c' r => hadm.orderly t l c c' r (by
          refine ⟨A, B, W1, W2, L, Rt, Le, Re, H2, q, e, F, S.gA, S.gB, S.gW1, S.gW2, fun fuel hf => ?_⟩
          obtain ⟨y1, y2, y3, y4, y5⟩ := S.runs fuel (by omega)
          exact ⟨y1, y2, y3, y4, y5, by rw [a0 fuel (by omega), ← a0 F (by omega), ht]⟩)
        have dA := S.dA
        have dB := S.dB
        have zA := hp A (List.mem_of_getElem? S.gA)
        have zB := hp B (List.mem_of_getElem? S.gB)
        rw [dA] at zA
        rw [dB] at zB
        rw [S.sq] at b1
        have hsm := hadm.few A S.gA
        rw [dA] at hsm
        have hz : ∀ x ∈ t.shape, 0 < dimSize x := by
          rw [b1]
          intro x hx
          simp at hx
          rcases hx with rfl | rfl | rfl | rfl
          · exact zA _ (by simp)
          · exact zA _ (by simp)
          · exact zB _ (by simp)
          · exact zB _ (by simp)
        obtain ⟨b, c1, c2, c3, c4, c5, c6⟩ := new_sitesB_shapes hfac b3 b1 hz (by simpa using hsm) eps cutoff minB maxB
          (htidy _ _ _ _ b1 b3.1 hz) fwd e hM
        obtain ⟨k1, k2⟩ := pair_replaceB S.gA S.gB hF.ket dA dB c1 c2 (opposite_flipped b) c3 c4 (c5.trans (b2.trans S.rq))
        refine ⟨BlockFit.replace hF k1 k2, k2, ?_⟩
        intro w hw
        rcases List.mem_or_eq_of_mem_set hw with hw | rfl
        · rcases List.mem_or_eq_of_mem_set hw with hw | rfl
          · exact hp w hw
          · rw [c1]
            intro x hx
            simp at hx
            rcases hx with rfl | rfl | rfl
            · exact zA _ (by simp)
            · exact zA _ (by simp)
            · exact c6
        · rw [c2]
          intro x hx
          simp at hx
          rcases hx with rfl | rfl | rfl
          · rw [dimSize_flipped]; exact c6
          · exact zB _ (by simp)
          · exact zB _ (by simp)

theorem SameOuter.closed_dense [AddCommGroup G] {s s' : List (BT G 𝕜)} (h : SameOuter s s') (hc : Closed (s.map denseOf)) : Closed (s'.map denseOf) := by
  refine ⟨?_, ?_⟩
  · rw [leftEnd_dense, h.left, ← leftEnd_dense]; exact hc.1
  · rw [rightEnd_dense, h.right, ← rightEnd_dense]; exact hc.2

/-- A run keeps an invariant that every update it makes keeps. -/
theorem run_keeps {S E : Type} (d : Dmrg S E ℝ) (P : Nat → List S → Prop) (Inv : List S → Prop) :
    ∀ (l : List (Nat × Bool)), (∀ o f, (o, f) ∈ l → ∀ s r, Inv s → P o s → d.fresh o f s = .ok r → Inv r.2) →
    ∀ (e : Option ℝ) (s : List S) y, Inv s → DM.RunAll d P l s → d.run l (e, s) = .ok y → Inv y.2
  | [], _, e, s, y, hi, _, hy => by cases hy; exact hi
  | (o, f) :: l, hI, e, s, y, hi, hr, hy => by
    unfold Dmrg.run at hy
    cases hf : d.fresh o f s with
    | error g => simp only [hf] at hy; cases hy
    | ok r =>
      simp only [hf] at hy
      exact run_keeps d P Inv l (fun o f hm => hI o f (by simp [hm])) _ _ y (hI o f (by simp) s r hi hr.1 hf) (hr.2 r hf) hy

/-- Every chain of a run of the block DMRG that returns, and the one returned, is in the sector. -/
theorem sector_run [AddCommGroup G] [LinearOrder G] (late : Bool) (Ws sites : List (BT G 𝕜))
    {fac : Blk 𝕜 → Blk 𝕜 × Blk 𝕜 × Blk 𝕜} (hfac : DenseSvd fac) (eps cutoff : ℝ) (minB maxB : Nat)
    (hF : BlockFit sites Ws sites) (hp : AllPositive sites) (hpW : AllPositive Ws) (hc : Closed (sites.map denseOf)) (hcW : Closed (Ws.map denseOf))
    (hl : late = false ∨ chargeAt (leftDim Ws) 0 = 0 ∧ chargeAt (rightDim Ws) 0 = 0) (hr : Neutral Ws)
    (h2 : 2 ≤ sites.length) (hsm : sites.length < 2 ^ 63) (oc : Nat) (ho : oc < sites.length)
    (dflt : Res (BT G 𝕜)) (above : ℝ → ℝ → Bool) (zeroNorm : List (BT G 𝕜) → Bool)
    (moveOc : List (BT G 𝕜) → Nat → Nat → Res (List (BT G 𝕜) × Nat)) (e0 : ℝ) (maxIt : Nat)
    (hreg : DM.RunAll (cutDmrgB late Ws fac eps cutoff minB maxB sites) (CutCountable late Ws sites fac eps cutoff minB maxB)
      (DM.tours sites.length (startPair sites.length oc) maxIt) sites)
    {e : ℝ} {fin : List (BT G 𝕜)} {oc' : Nat} {log : List (Event (BT G 𝕜) ℝ)}
    (hrun : DM.dmrg false (cutDmrgB late Ws fac eps cutoff minB maxB sites) dflt above zeroNorm moveOc e0 maxIt sites.length sites oc
        = .ok (e, fin, oc', log)) :
    InSector Ws sites fin ∧ ∀ n x s, Event.iteration n x s ∈ log → InSector Ws sites s := by
  have hne : sites ≠ [] := by rintro rfl; simp at h2
  have hq : startPair sites.length oc + 2 ≤ sites.length := by unfold startPair; split <;> omega
  obtain ⟨h, conv, s, last, hH, hlast, hfin, hlog, -⟩ := DM.dmrg_ok false _ dflt above zeroNorm moveOc e0 maxIt sites oc h2 ho hsm e fin oc' log hrun
  unfold DM.Finish at hfin
  rw [if_neg (by simp)] at hfin
  obtain ⟨rfl, rfl⟩ := hfin
  have key : ∀ (k : Nat) (x : ℝ × List (BT G 𝕜)), h[k]? = some x → InSector Ws sites x.2 ∧ k ≤ maxIt ∧
      DM.RunAll (cutDmrgB late Ws fac eps cutoff minB maxB sites) (CutCountable late Ws sites fac eps cutoff minB maxB)
        (DM.tours sites.length (startPair sites.length oc) (maxIt - k)) x.2 := by
    intro k
    induction k with
    | zero =>
      intro x hx
      rw [hH.start] at hx
      cases hx
      exact ⟨⟨hF, SameOuter.refl _, hp⟩, by omega, hreg⟩
    | succ k ih =>
      intro x hx
      have hk := (List.getElem?_eq_some_iff.1 hx).1
      have hb := hH.bound
      obtain ⟨y, hy⟩ : ∃ y, h[k]? = some y := ⟨_, List.getElem?_eq_getElem (by omega)⟩
      obtain ⟨i1, i2, i3⟩ := ih y hy
      have hsw := hH.sweep k y x hy hx
      rw [show maxIt - k = (maxIt - (k + 1)) + 1 by omega, DM.tours_succ] at i3
      obtain ⟨r1, r2⟩ := DM.RunAll_append _ _ _ _ _ i3
      refine ⟨run_keeps _ (CutCountable late Ws sites fac eps cutoff minB maxB) (InSector Ws sites) _ ?_ none y.2 _ i1 r1 hsw, by omega, r2 _ _ hsw⟩
      intro o f hm s r hi hP hfr
      have hin := DM.tour_inside sites.length _ h2 hq _ hm
      obtain ⟨c1, c2, c3⟩ := sector_update late Ws sites s hfac eps cutoff minB maxB o f
        ⟨hne, hF.ket, hp, hi.outer.left.symm, hi.outer.right.symm⟩ hpW (SameOuter.closed_dense hi.outer hc) hcW hl hr
        (by rw [SameOuter.length_eq hi.outer]; exact hin) hP hi.fit hi.positive hfr
      exact ⟨c1, SameOuter.trans hi.outer c2, c3⟩
  refine ⟨(key (h.length - 1) (e, fin) (by rw [← List.getLast?_eq_getElem?]; exact hlast)).1, ?_⟩
  intro n x s1 hm
  rw [hlog] at hm
  unfold DM.logOf at hm
  simp only [List.mem_append, List.mem_cons, List.not_mem_nil, or_false, reduceCtorEq, false_or, List.mem_map] at hm
  obtain ⟨p, hp, heq⟩ := hm
  injection heq with q1 q2 q3
  rw [List.mem_zipIdx_iff_getElem?] at hp
  rw [List.getElem?_drop] at hp
  rw [← q3]
  exact (key _ _ hp).1
end QuantiT.BN
