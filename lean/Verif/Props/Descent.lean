import Verif.Props.Update
/-
Energies of whole runs of the dense DMRG (C74).
-/
namespace QuantiT
namespace DM
open Finset Spec MP
variable {S E En : Type}

/-! ### Runs that fail -/

theorem run_energy (d : Dmrg S E En) : ∀ (l : List (Nat × Bool)) (e e' : Option En) (s : List S),
    (∀ f, d.run l (e, s) = .error f ↔ d.run l (e', s) = .error f) ∧
    (∀ y, d.run l (e, s) = .ok y → ∃ e'', d.run l (e', s) = .ok (e'', y.2))
  | [], e, e', s => by
    refine ⟨fun f => by simp [Dmrg.run], fun y h => ?_⟩
    cases h
    exact ⟨e', rfl⟩
  | (o, f) :: l, e, e', s => by
    simp only [Dmrg.run]
    cases d.fresh o f s with
    | error g => exact ⟨fun _ => by simp, fun y h => by cases h⟩
    | ok r => exact ⟨fun _ => by simp, fun y h => ⟨_, h⟩⟩

/-- The updates of `n` sweeps. -/
def tours (len q n : Nat) : List (Nat × Bool) := (List.replicate n (tour len q)).flatten

theorem tours_succ (len q n : Nat) : tours len q (n + 1) = tour len q ++ tours len q n := by
  simp [tours, List.replicate_succ]

theorem itLoop_error_run (d : Dmrg S E En) (above : En → En → Bool) (len : Nat) (hlen : 2 ≤ len) : ∀ (rem it : Nat) (e0 : En)
    (st : St S E) (log : List (Event S En)) (f : Fault), Fresh d len st →
    itLoop d above (len - 1) (len - 2) (nUpd len) rem it e0 (dir len st.oc) st log = .error f →
    d.run (tours len st.oc rem) (none, st.sites) = .error f := by
  intro rem
  induction rem with
  | zero => intro it e0 st log f _ h; cases h
  | succ rem ih =>
    intro it e0 st log f hF h
    have hs := sweep_sim d len hlen st none hF
    unfold itLoop at h
    rw [tours_succ, run_append]
    cases hr : d.run (tour len st.oc) (none, st.sites) with
    | error g =>
      rw [hr] at hs
      simp only [Sim] at hs
      unfold nUpd at h
      rw [hs] at h
      cases h
      rfl
    | ok b =>
      rw [hr] at hs
      obtain ⟨⟨e', s', st'⟩, ha, q1, q2, q3, q4, q5⟩ := hs
      unfold nUpd at h
      rw [ha] at h
      simp only [bind, Except.bind] at h q1 q2 q3 q4 q5 ⊢
      split at h
      · rw [q4, ← q3] at h
        have := ih _ _ st' _ f q5 h
        rw [q3, q2] at this
        obtain ⟨b1, b2⟩ := b
        exact ((run_energy d _ none b1 b2).1 f).1 this
      · cases h

/-! ### Runs of the dense DMRG -/

variable {𝕜 : Type} [RCLike 𝕜]

/-- Every update of a run is `Regular`. -/
def RegularRun (d : Dmrg (Blk 𝕜) E En) (Ws : List (Blk 𝕜)) : List (Nat × Bool) → List (Blk 𝕜) → Prop
  | [], _ => True
  | (o, f) :: l, s => Regular Ws s o ∧ ∀ r, d.fresh o f s = .ok r → RegularRun d Ws l r.2

theorem RegularRun_append (d : Dmrg (Blk 𝕜) E En) (Ws : List (Blk 𝕜)) : ∀ (l l' : List (Nat × Bool)) (s : List (Blk 𝕜)),
    RegularRun d Ws (l ++ l') s → RegularRun d Ws l s ∧ ∀ e y, d.run l (e, s) = .ok y → RegularRun d Ws l' y.2
  | [], l', s, h => ⟨trivial, fun e y hy => by cases hy; exact h⟩
  | (o, f) :: l, l', s, h => by
    refine ⟨⟨h.1, fun r hr => (RegularRun_append d Ws l l' r.2 (h.2 r hr)).1⟩, fun e y hy => ?_⟩
    unfold Dmrg.run at hy
    cases hf : d.fresh o f s with
    | error g => simp only [hf] at hy; cases hy
    | ok r =>
      simp only [hf] at hy
      exact (RegularRun_append d Ws l l' r.2 (h.2 r hf)).2 _ y hy

/-- Each update is at a pair that contains the center left by the one before. -/
def Follows : Nat → List (Nat × Bool) → Prop
  | _, [] => True
  | c, (o, f) :: l => (o = c ∨ o + 1 = c) ∧ Follows (if f then o + 1 else o) l

/-- The center after a run. -/
def after : Nat → List (Nat × Bool) → Nat
  | c, [] => c
  | _, (o, f) :: l => after (if f then o + 1 else o) l

theorem Follows_append : ∀ (c : Nat) (l l' : List (Nat × Bool)), Follows c (l ++ l') ↔ Follows c l ∧ Follows (after c l) l'
  | c, [], l' => by simp [Follows, after]
  | c, (o, f) :: l, l' => by
    simp only [List.cons_append, Follows, after]
    rw [Follows_append]
    tauto

theorem after_append : ∀ (c : Nat) (l l' : List (Nat × Bool)), after c (l ++ l') = after (after c l) l'
  | c, [], l' => rfl
  | c, (o, f) :: l, l' => after_append _ l l'

/-- A stretch of updates to the left. -/
theorem follows_back (p : Nat) : ∀ (n c : Nat), n ≤ p + 1 → (p = c ∨ p + 1 = c) →
    Follows c ((List.range n).map fun j => (p - j, false)) ∧
    after c ((List.range n).map fun j => (p - j, false)) = if n = 0 then c else p + 1 - n := by
  intro n
  induction n with
  | zero => intro c _ _; exact ⟨trivial, rfl⟩
  | succ n ih =>
    intro c hn hc
    obtain ⟨h1, h2⟩ := ih c (by omega) hc
    rw [List.range_succ, List.map_append, Follows_append, after_append, h2]
    simp only [List.map_cons, List.map_nil, Follows, after]
    refine ⟨⟨h1, ?_, trivial⟩, ?_⟩
    · split
      · subst_vars; simpa using hc
      · omega
    · simp

/-- A stretch of updates to the right, from the left end. -/
theorem follows_fwd : ∀ (n c : Nat), (0 = c ∨ 1 = c) → Follows c ((List.range n).map fun j => (j, true)) ∧
    after c ((List.range n).map fun j => (j, true)) = if n = 0 then c else n := by
  intro n
  induction n with
  | zero => intro c _; exact ⟨trivial, rfl⟩
  | succ n ih =>
    intro c hc
    obtain ⟨h1, h2⟩ := ih c hc
    rw [List.range_succ, List.map_append, Follows_append, after_append, h2]
    simp only [List.map_cons, List.map_nil, Follows, after]
    refine ⟨⟨h1, ?_, trivial⟩, by simp⟩
    split
    · subst_vars; simpa using hc
    · omega

/-- A sweep that starts at a pair containing the center ends with the center in that pair. -/
theorem follows_tour (len q c : Nat) (h2 : 2 ≤ len) (hq : q + 2 ≤ len) (hc : q = c ∨ q + 1 = c) :
    Follows c (tour len q) ∧ (q = after c (tour len q) ∨ q + 1 = after c (tour len q)) := by
  unfold tour
  split
  · have : q = 0 := by omega
    subst this
    simp only [Follows, after]
    simp
    omega
  · obtain ⟨a1, a2⟩ := follows_back q q c (by omega) hc
    have hc1 : 0 = (if q = 0 then c else q + 1 - q) ∨ 1 = (if q = 0 then c else q + 1 - q) := by
      split
      · omega
      · omega
    obtain ⟨b1, b2⟩ := follows_fwd (len - 2) _ hc1
    rw [if_neg (show len - 2 ≠ 0 by omega)] at b2
    obtain ⟨c1, c2⟩ := follows_back (len - 2) (len - 2 - q) (len - 2) (by omega) (Or.inl rfl)
    simp only [Follows_append, after_append, a2, b2, c2]
    refine ⟨⟨⟨a1, b1⟩, c1⟩, ?_⟩
    split <;> omega

/-- What a run keeps. -/
structure Good (Ws : List (Blk 𝕜)) (ds : List Nat) (s : List (Blk 𝕜)) (c : Nat) : Prop where
  fit : Fit s Ws s
  closed : Closed s
  phys : phys s = ds
  canon : Canonical s c
  norm : normSq s = 1

theorem Good.length {Ws : List (Blk 𝕜)} {ds : List Nat} {s : List (Blk 𝕜)} {c : Nat} (h : Good Ws ds s c) : s.length = ds.length := by
  rw [← h.phys]; simp [Spec.phys]

theorem run_good (Ws : List (Blk 𝕜)) (ds : List Nat) (svd : Blk 𝕜 → Blk 𝕜 × Blk 𝕜 × Blk 𝕜)
    (hsvd : ∀ X l s t r, X.dims = [l, s, t, r] → ∃ k, SvdPair X (svd X).1 (svd X).2.1 (svd X).2.2 l s t r k)
    (hcW : Closed Ws) (hH : HermitianOp Ws ds) : ∀ (l : List (Nat × Bool)) (c : Nat) (s : List (Blk 𝕜)) (e : Option ℝ),
    Good Ws ds s c → Follows c l → (∀ p ∈ l, p.1 + 1 < ds.length) → RegularRun (blkDmrg Ws svd) Ws l s →
    ∃ e' s', (blkDmrg Ws svd).run l (e, s) = .ok (e', s') ∧ Good Ws ds s' (after c l) ∧ energy Ws s' ≤ energy Ws s ∧
      (l ≠ [] → e' = some (energy Ws s'))
  | [], c, s, e, hg, _, _, _ => ⟨e, s, rfl, hg, le_refl _, fun h => absurd rfl h⟩
  | (o, f) :: l, c, s, e, hg, hf, hin, hr => by
    have hpc : PairCanonical s o := by
      have hc := hf.1
      exact ⟨fun i A h1 h2 => hg.canon.1 i A h1 (by omega), fun i A h1 h2 => hg.canon.2 i A h1 (by omega)⟩
    have hin0 := hin (o, f) (by simp)
    obtain ⟨E, s1, a1, a2, a3, a4, a5, a6, a7, a8, _⟩ := C73_update_partial Ws s svd o f hsvd hg.fit hg.closed hcW
      (by rw [hg.phys]; exact hH) (by rw [hg.length]; exact hin0) hpc hg.norm hr.1
    obtain ⟨e', s', b1, b2, b3, b4⟩ := run_good Ws ds svd hsvd hcW hH l _ s1 (some E) ⟨a2, a3, a4.trans hg.phys, a5, a6⟩ hf.2
      (fun p hp => hin p (List.mem_cons_of_mem _ hp)) (hr.2 _ a1)
    refine ⟨e', s', ?_, b2, ?_, fun _ => ?_⟩
    · unfold Dmrg.run
      rw [a1]
      exact b1
    · rw [← a7] at b3
      exact b3.trans a8
    · cases l with
      | nil =>
        cases b1
        rw [← a7]
      | cons p l => exact b4 (by simp)

/-- Same state, same norm and energy. -/
theorem same_energy {Ws s s' : List (Blk 𝕜)} (hc : Closed s) (h : SameState s s') : normSq s' = normSq s ∧ energy Ws s' = energy Ws s := by
  have ha : ∀ σ ∈ configs (phys s), amp s' σ 0 0 = amp s σ 0 0 := fun σ hσ =>
    h.amp σ 0 0 (mem_configs.1 hσ) (by rw [hc.1]; norm_num) (by rw [hc.2]; norm_num)
  constructor
  · unfold normSq
    rw [h.phys]
    exact sum_congr rfl fun σ hσ => by rw [ha σ hσ]
  · unfold energy sandwich
    rw [h.phys]
    congr 1
    exact sum_congr rfl fun σ hσ => sum_congr rfl fun τ hτ => by rw [ha σ hσ, ha τ hτ]

theorem history_good (Ws : List (Blk 𝕜)) (ds : List Nat) (svd : Blk 𝕜 → Blk 𝕜 × Blk 𝕜 × Blk 𝕜)
    (hsvd : ∀ X l s t r, X.dims = [l, s, t, r] → ∃ k, SvdPair X (svd X).1 (svd X).2.1 (svd X).2.2 l s t r k)
    (hcW : Closed Ws) (hH : HermitianOp Ws ds) (q max : Nat) (h2 : 2 ≤ ds.length) (hq : q + 2 ≤ ds.length)
    (sites : List (Blk 𝕜)) (hr : RegularRun (blkDmrg Ws svd) Ws (tours ds.length q max) sites) (c : Nat) (hc : q = c ∨ q + 1 = c)
    (hg : Good Ws ds sites c) (h : List (ℝ × List (Blk 𝕜))) (e0 : ℝ) (h0 : h[0]? = some (e0, sites))
    (hl : h.length ≤ max + 1)
    (hs : ∀ k x y, h[k]? = some x → h[k + 1]? = some y →
      (blkDmrg Ws svd).run (tour ds.length q) (none, x.2) = .ok (some y.1, y.2)) :
    ∀ k x, h[k]? = some x → (∃ c, (q = c ∨ q + 1 = c) ∧ Good Ws ds x.2 c) ∧
      RegularRun (blkDmrg Ws svd) Ws (tours ds.length q (max - k)) x.2 ∧
      (0 < k → x.1 = energy Ws x.2 ∧ ∃ y, h[k - 1]? = some y ∧ energy Ws x.2 ≤ energy Ws y.2) := by
  intro k
  induction k with
  | zero =>
    intro x hx
    rw [h0] at hx
    cases hx
    exact ⟨⟨c, hc, hg⟩, hr, fun h => absurd h (lt_irrefl 0)⟩
  | succ k ih =>
    intro x hx
    have hk := (List.getElem?_eq_some_iff.1 hx).1
    obtain ⟨y, hy⟩ : ∃ y, h[k]? = some y := ⟨_, List.getElem?_eq_getElem (by omega)⟩
    obtain ⟨⟨c', hc', hg'⟩, hr', _⟩ := ih y hy
    obtain ⟨m, hm⟩ : ∃ m, max - k = m + 1 := ⟨max - k - 1, by omega⟩
    rw [hm, tours_succ] at hr'
    obtain ⟨r1, r2⟩ := RegularRun_append _ _ _ _ _ hr'
    obtain ⟨f1, f2⟩ := follows_tour ds.length q c' h2 hq hc'
    obtain ⟨e', s', b1, b2, b3, b4⟩ := run_good Ws ds svd hsvd hcW hH _ c' y.2 none hg' f1 (tour_inside ds.length q h2 hq) r1
    have hrun := hs k y x hy hx
    rw [b1] at hrun
    obtain ⟨rfl, rfl⟩ := Prod.mk.inj (Except.ok.inj hrun)
    refine ⟨⟨_, f2, b2⟩, ?_, fun _ => ⟨?_, y, by simpa using hy, b3⟩⟩
    · rw [show max - (k + 1) = m by omega]
      exact r2 none _ b1
    · exact Option.some.inj (b4 (tour_ne ds.length q h2))

/-- **C74** (partial: no truncation, and every local update of the run must be `Regular`, see C73).  A whole run of the dense DMRG,
for every hermitian Hamiltonian, every chain of two sites or more that is normalised and canonical around its center,
every limit on the number of sweeps and every convergence criterion: it returns; the energy returned is the expectation
value of the Hamiltonian in the state returned, which has norm one; it is at most the energy of the initial state and at
least every lower bound of the spectrum; and the energies given to the logger are those of the states given with them and
never increase. -/
theorem C74_descent_partial (Ws sites : List (Blk 𝕜)) (svd : Blk 𝕜 → Blk 𝕜 × Blk 𝕜 × Blk 𝕜)
    (svd1 : Blk 𝕜 → Nat → Blk 𝕜 × Blk 𝕜 × Blk 𝕜)
    (hsvd : ∀ X l s t r, X.dims = [l, s, t, r] → ∃ k, SvdPair X (svd X).1 (svd X).2.1 (svd X).2.2 l s t r k) (hsvd1 : SvdOk svd1)
    (hF : Fit sites Ws sites) (hc : Closed sites) (hcW : Closed Ws) (hH : HermitianOp Ws (phys sites))
    (h2 : 2 ≤ sites.length) (hsm : sites.length < 2 ^ 63) (oc : Nat) (ho : oc < sites.length) (hcan : Canonical sites oc)
    (hn : normSq sites = 1) (dflt : Res (Blk 𝕜)) (above : ℝ → ℝ → Bool) (e0 : ℝ) (maxIt : Nat) (hmax : 1 ≤ maxIt)
    (hreg : RegularRun (blkDmrg Ws svd) Ws (tours sites.length (startPair sites.length oc) maxIt) sites) :
    ∃ e fin oc' log, dmrg true (blkDmrg Ws svd) dflt above tooSmall (moveOcDense star svd1) e0 maxIt sites.length sites oc
        = .ok (e, fin, oc', log) ∧
      phys fin = phys sites ∧ normSq fin = 1 ∧ e = energy Ws fin ∧ e ≤ energy Ws sites ∧
      (∀ lo, BoundedBelow Ws (phys sites) lo → lo ≤ e) ∧
      (∀ n x s, Event.iteration n x s ∈ log → phys s = phys sites ∧ x = energy Ws s ∧ normSq s = 1 ∧ e ≤ x ∧ x ≤ energy Ws sites) ∧
      (∀ n x s x' s', Event.iteration n x s ∈ log → Event.iteration (n + 1) x' s' ∈ log → x' ≤ x) := by
  have hds : (phys sites).length = sites.length := by simp [Spec.phys]
  have hq : startPair sites.length oc + 2 ≤ sites.length := by unfold startPair; split <;> omega
  have hcq : startPair sites.length oc = oc ∨ startPair sites.length oc + 1 = oc := by unfold startPair; split <;> omega
  have hg : Good Ws (phys sites) sites oc := ⟨hF, hc, rfl, hcan, hn⟩
  have hreg' : RegularRun (blkDmrg Ws svd) Ws (tours (phys sites).length (startPair sites.length oc) maxIt) sites := by
    rw [hds]; exact hreg
  have key := fun h e0 h0 hl hs => history_good Ws (phys sites) svd hsvd hcW hH (startPair sites.length oc) maxIt (by omega)
    (by omega) sites hreg' oc hcq hg h e0 h0 hl hs
  -- it returns
  have hret : ∃ r, dmrg true (blkDmrg Ws svd) dflt above tooSmall (moveOcDense star svd1) e0 maxIt sites.length sites oc = .ok r := by
    obtain ⟨env, hFr, hE⟩ := dmrg_unfold true (blkDmrg Ws svd) dflt above tooSmall (moveOcDense star svd1) e0 maxIt sites oc h2 ho hsm
    rw [hE, if_neg (by simp [tooSmall, hn]; norm_num)]
    cases hl : itLoop (blkDmrg Ws svd) above (sites.length - 1) (sites.length - 2) (nUpd sites.length) maxIt 0 e0
          (dir sites.length (startPair sites.length oc)) ⟨sites, startPair sites.length oc, env⟩ [.init] with
    | error g =>
      exfalso
      have herr := itLoop_error_run (blkDmrg Ws svd) above sites.length h2 maxIt 0 e0 _ _ g hFr hl
      simp only at herr
      have : ∀ (n c : Nat) (s : List (Blk 𝕜)) (e : Option ℝ), (startPair sites.length oc = c ∨ startPair sites.length oc + 1 = c) →
          Good Ws (phys sites) s c → RegularRun (blkDmrg Ws svd) Ws (tours sites.length (startPair sites.length oc) n) s →
          ∃ y, (blkDmrg Ws svd).run (tours sites.length (startPair sites.length oc) n) (e, s) = .ok y := by
        intro n
        induction n with
        | zero => intro c s e _ _ _; exact ⟨_, rfl⟩
        | succ n ih =>
          intro c s e hc hg hr
          rw [tours_succ] at hr ⊢
          obtain ⟨r1, r2⟩ := RegularRun_append _ _ _ _ _ hr
          obtain ⟨f1, f2⟩ := follows_tour sites.length _ c h2 hq hc
          obtain ⟨e', s', b1, b2, _⟩ := run_good Ws (phys sites) svd hsvd hcW hH _ c s e hg f1
            (by rw [hds]; exact tour_inside sites.length _ h2 hq) r1
          rw [run_append, b1]
          exact ih _ s' e' f2 b2 (r2 _ _ b1)
      obtain ⟨y, hy⟩ := this maxIt oc sites none hcq hg hreg
      rw [hy] at herr
      cases herr
    | ok o =>
      obtain ⟨h, conv, hH', hlast, o1, o2, o3, o4, o5⟩ := itLoop_ok (blkDmrg Ws svd) above sites.length h2 maxIt 0 e0 _ _ o hFr hl
      simp only [bind, Except.bind] at o1 ⊢
      rw [if_neg (by rw [o1]; simp)]
      by_cases hd : startPair sites.length oc = 0
      · obtain ⟨m', e1, _⟩ := C45_move_oc hsvd1 ⟨o.st.sites, 1⟩ (by
          obtain ⟨k, hk⟩ := List.mem_iff_getElem?.1 (List.mem_of_getLast? hlast)
          obtain ⟨⟨c', _, hg'⟩, _⟩ := key h e0 hH'.start hH'.bound (by rw [hds]; exact hH'.sweep) k _ hk
          exact hg'.fit.ket) (by have := o3.slen; simp only; omega) 0 (by have := o3.slen; simp only; omega)
        rw [o1, hd]
        unfold moveOcDense
        simp only [and_self, if_true, ne_eq, one_ne_zero, not_false_eq_true]
        rw [e1]
        exact ⟨_, rfl⟩
      · simp only [o1, hd, and_false, if_false, ne_eq, not_true_eq_false]
        exact ⟨_, rfl⟩
  obtain ⟨⟨e, fin, oc', log⟩, hr⟩ := hret
  obtain ⟨h, conv, s, last, a, b, fi, lg, _⟩ := dmrg_ok true (blkDmrg Ws svd) dflt above tooSmall (moveOcDense star svd1) e0 maxIt sites oc
    h2 ho hsm e fin oc' log hr
  have key := key h e0 a.start a.bound (by rw [hds]; exact a.sweep)
  -- more than the start is in the history
  have hlen : 2 ≤ h.length := by
    cases conv with
    | true => obtain ⟨k, x, y, hk, _⟩ := a.stops rfl; omega
    | false => have := (a.limit rfl).1; omega
  have hmono : ∀ (n k : Nat) (e1 : ℝ) (s1 : List (Blk 𝕜)) (e2 : ℝ) (s2 : List (Blk 𝕜)), h[k]? = some (e1, s1) →
      h[k + n]? = some (e2, s2) → energy Ws s2 ≤ energy Ws s1 := by
    intro n
    induction n with
    | zero => intro k e1 s1 e2 s2 hx hy; rw [Nat.add_zero, hx] at hy; cases hy; exact le_refl _
    | succ n ih =>
      intro k e1 s1 e2 s2 hx hy
      obtain ⟨_, _, hlast⟩ := key _ (e2, s2) hy
      obtain ⟨_, ⟨e3, s3⟩, hz, hle⟩ := hlast (by omega)
      exact hle.trans (ih k e1 s1 e3 s3 hx (by simpa using hz))
  have hlastk : h[h.length - 1]? = some (e, s) := by rw [← List.getLast?_eq_getElem?]; exact b
  obtain ⟨⟨c', _, hg'⟩, _, hpos⟩ := key _ _ hlastk
  obtain ⟨he, _⟩ := hpos (by omega)
  simp only at he hg'
  have hfin : phys fin = phys sites ∧ normSq fin = 1 ∧ energy Ws fin = energy Ws s := by
    unfold Finish at fi
    split at fi
    · obtain ⟨m', e1, _, _, ss, _⟩ := C45_move_oc hsvd1 ⟨s, 1⟩ hg'.fit.ket (by show 1 < s.length; rw [hg'.length]; omega) 0
        (by show 0 < s.length; rw [hg'.length]; omega)
      unfold moveOcDense at fi
      rw [show ((0 : Nat) : Int) = ((0 : Nat) : Int) from rfl, e1] at fi
      cases fi
      obtain ⟨g1, g2⟩ := same_energy (Ws := Ws) hg'.closed ss
      exact ⟨ss.phys.trans hg'.phys, g1.trans hg'.norm, g2⟩
    · rw [fi.1]
      exact ⟨hg'.phys, hg'.norm, rfl⟩
  have hit : ∀ n x s1, Event.iteration n x s1 ∈ log → h[n + 1]? = some (x, s1) := by
    intro n x s1 hm
    rw [lg] at hm
    unfold logOf at hm
    simp only [List.mem_append, List.mem_cons, List.not_mem_nil, or_false, reduceCtorEq, false_or, List.mem_map] at hm
    obtain ⟨p, hp, heq⟩ := hm
    injection heq with q1 q2 q3
    rw [List.mem_zipIdx_iff_getElem?] at hp
    rw [List.getElem?_drop] at hp
    rw [← q1, ← q2, ← q3, Nat.add_comm]
    exact hp
  refine ⟨e, fin, oc', log, hr, hfin.1, hfin.2.1, by rw [hfin.2.2]; exact he, ?_, ?_, ?_, ?_⟩
  · rw [he]
    exact hmono (h.length - 1) 0 _ _ e s a.start (by rw [Nat.zero_add]; exact hlastk)
  · intro lo hlo
    rw [he]
    exact C73_bound Ws s lo (by rw [hg'.phys]; exact hlo) hg'.norm
  · intro n x s1 hm
    have hx := hit n x s1 hm
    obtain ⟨⟨c1, _, hg1⟩, _, hpos1⟩ := key _ _ hx
    have hx1 := (hpos1 (by omega)).1
    simp only at hx1
    refine ⟨hg1.phys, hx1, hg1.norm, ?_, ?_⟩
    · rw [hx1, he]
      have hn1 := (List.getElem?_eq_some_iff.1 hx).1
      exact hmono (h.length - 1 - (n + 1)) (n + 1) _ _ e s hx (by rw [show n + 1 + (h.length - 1 - (n + 1)) = h.length - 1 by omega]; exact hlastk)
    · rw [hx1]
      exact hmono (n + 1) 0 _ _ _ _ a.start (by rw [Nat.zero_add]; exact hx)
  · intro n x s1 x' s1' hm hm'
    have hx := hit n x s1 hm
    have hx' := hit (n + 1) x' s1' hm'
    obtain ⟨_, _, p1⟩ := key _ _ hx
    obtain ⟨_, _, p2⟩ := key _ _ hx'
    have q1 := (p1 (by omega)).1
    have q2 := (p2 (by omega)).1
    simp only at q1 q2
    rw [q1, q2]
    exact hmono 1 _ _ _ _ _ hx hx'

end DM
end QuantiT
