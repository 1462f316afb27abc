import Verif.Lemmas.Descent2
/-
Whole runs of any DMRG whose local updates succeed and relate the chains before and after.
-/
namespace QuantiT
namespace DM
open Spec
variable {S E : Type}

/-- Local updates one after the other, each related by `Q`: from the chain `s` to `s'`; `e` and `e'` are the last energies. -/
inductive Walk (Q : Nat → Bool → List S → ℝ → List S → Prop) : List (Nat × Bool) → List S → Option ℝ → Option ℝ → List S → Prop
  | nil (s : List S) (e : Option ℝ) : Walk Q [] s e e s
  | cons {o : Nat} {f : Bool} {l : List (Nat × Bool)} {s s1 s' : List S} {x : ℝ} {e e' : Option ℝ} :
      Q o f s x s1 → Walk Q l s1 (some x) e' s' → Walk Q ((o, f) :: l) s e e' s'

/-- An update from a chain with the invariant and the property succeeds, keeps the invariant and is related by `Q`. -/
def Steps (d : Dmrg S E ℝ) (P : Nat → List S → Prop) (I : List S → Nat → Prop) (Q : Nat → Bool → List S → ℝ → List S → Prop) (len : Nat) : Prop :=
  ∀ s c o f, I s c → (o = c ∨ o + 1 = c) → o + 1 < len → P o s →
    ∃ x s', d.fresh o f s = .ok (x, s') ∧ I s' (if f then o + 1 else o) ∧ Q o f s x s'

variable {d : Dmrg S E ℝ} {P : Nat → List S → Prop} {I : List S → Nat → Prop} {Q : Nat → Bool → List S → ℝ → List S → Prop} {len : Nat}

theorem run_steps (hL : Steps d P I Q len) : ∀ (l : List (Nat × Bool)) (c : Nat) (s : List S) (e : Option ℝ),
    I s c → Follows c l → (∀ p ∈ l, p.1 + 1 < len) → RunAll d P l s →
    ∃ e' s', d.run l (e, s) = .ok (e', s') ∧ I s' (after c l) ∧ Walk Q l s e e' s'
  | [], c, s, e, hg, _, _, _ => ⟨e, s, rfl, hg, .nil s e⟩
  | (o, f) :: l, c, s, e, hg, hf, hin, hr => by
    obtain ⟨x, s1, a1, a2, a3⟩ := hL s c o f hg hf.1 (hin (o, f) (by simp)) hr.1
    obtain ⟨e', s', b1, b2, b3⟩ := run_steps hL l _ s1 (some x) a2 hf.2
      (fun p hp => hin p (List.mem_cons_of_mem _ hp)) (hr.2 _ a1)
    refine ⟨e', s', ?_, b2, .cons a3 b3⟩
    unfold Dmrg.run
    rw [a1]
    exact b1

theorem history_steps (hL : Steps d P I Q len) (q max : Nat) (h2 : 2 ≤ len) (hq : q + 2 ≤ len)
    (sites : List S) (hr : RunAll d P (tours len q max) sites) (c : Nat) (hc : q = c ∨ q + 1 = c)
    (hg : I sites c) (h : List (ℝ × List S)) (e0 : ℝ) (h0 : h[0]? = some (e0, sites)) (hl : h.length ≤ max + 1)
    (hs : ∀ k x y, h[k]? = some x → h[k + 1]? = some y → d.run (tour len q) (none, x.2) = .ok (some y.1, y.2)) :
    ∀ k x, h[k]? = some x → (∃ c, (q = c ∨ q + 1 = c) ∧ I x.2 c) ∧ RunAll d P (tours len q (max - k)) x.2 ∧
      (∀ j y, k = j + 1 → h[j]? = some y → Walk Q (tour len q) y.2 none (some x.1) x.2) := by
  intro k
  induction k with
  | zero =>
    intro x hx
    rw [h0] at hx
    cases hx
    exact ⟨⟨c, hc, hg⟩, hr, fun j y h => by omega⟩
  | succ k ih =>
    intro x hx
    have hk := (List.getElem?_eq_some_iff.1 hx).1
    obtain ⟨y, hy⟩ : ∃ y, h[k]? = some y := ⟨_, List.getElem?_eq_getElem (by omega)⟩
    obtain ⟨⟨c', hc', hg'⟩, hr', _⟩ := ih y hy
    obtain ⟨m, hm⟩ : ∃ m, max - k = m + 1 := ⟨max - k - 1, by omega⟩
    rw [hm, tours_succ] at hr'
    obtain ⟨r1, r2⟩ := RunAll_append _ _ _ _ _ hr'
    obtain ⟨f1, f2⟩ := follows_tour len q c' h2 hq hc'
    obtain ⟨e', s', b1, b2, b3⟩ := run_steps hL _ c' y.2 none hg' f1 (tour_inside len q h2 hq) r1
    have hrun := hs k y x hy hx
    rw [b1] at hrun
    obtain ⟨rfl, rfl⟩ := Prod.mk.inj (Except.ok.inj hrun)
    refine ⟨⟨_, f2, b2⟩, ?_, fun j z hj hz => ?_⟩
    · rw [show max - (k + 1) = m by omega]
      exact r2 none _ b1
    · cases hj
      rw [hy] at hz
      cases hz
      exact b3

/-- A whole run. -/
theorem dmrg_steps {sites : List S} (hL : Steps d P I Q sites.length) (h2 : 2 ≤ sites.length) (hsm : sites.length < 2 ^ 63) (oc : Nat)
    (ho : oc < sites.length) (hg : I sites oc) (dense : Bool) (dflt : E) (above : ℝ → ℝ → Bool) (zeroNorm : List S → Bool)
    (hz : dense = true → zeroNorm sites = false)
    (moveOc : List S → Nat → Nat → Res (List S × Nat))
    (hmove : dense = true → ∀ s c, I s c → ∃ s' oc', moveOc s 1 0 = .ok (s', oc')) (e0 : ℝ) (maxIt : Nat) (hmax : 1 ≤ maxIt)
    (hreg : RunAll d P (tours sites.length (startPair sites.length oc) maxIt) sites) :
    ∃ e fin oc' log s, ∃ h : List (ℝ × List S), dmrg dense d dflt above zeroNorm moveOc e0 maxIt sites.length sites oc = .ok (e, fin, oc', log) ∧
      h[0]? = some (e0, sites) ∧ 2 ≤ h.length ∧ h.length ≤ maxIt + 1 ∧ h[h.length - 1]? = some (e, s) ∧
      Finish dense moveOc (startPair sites.length oc) s fin oc' ∧
      (∀ (k : Nat) (x : ℝ × List S), h[k]? = some x → ∃ c, (startPair sites.length oc = c ∨ startPair sites.length oc + 1 = c) ∧ I x.2 c) ∧
      (∀ (k : Nat) (x y : ℝ × List S), h[k]? = some x → h[k + 1]? = some y → Walk Q (tour sites.length (startPair sites.length oc)) x.2 none (some y.1) y.2) ∧
      (∀ n x s, Event.iteration n x s ∈ log ↔ h[n + 1]? = some (x, s)) := by
  have hq : startPair sites.length oc + 2 ≤ sites.length := by unfold startPair; split <;> omega
  have hcq : startPair sites.length oc = oc ∨ startPair sites.length oc + 1 = oc := by unfold startPair; split <;> omega
  have key := fun h e0 h0 hl hs => history_steps hL (startPair sites.length oc) maxIt h2 hq sites hreg oc hcq hg h e0 h0 hl hs
  have hret : ∃ r, dmrg dense d dflt above zeroNorm moveOc e0 maxIt sites.length sites oc = .ok r := by
    obtain ⟨env, hFr, hE⟩ := dmrg_unfold dense d dflt above zeroNorm moveOc e0 maxIt sites oc h2 ho hsm
    rw [hE, if_neg (by rintro ⟨a, b⟩; rw [hz a] at b; cases b)]
    cases hl : itLoop d above (sites.length - 1) (sites.length - 2) (nUpd sites.length) maxIt 0 e0
          (dir sites.length (startPair sites.length oc)) ⟨sites, startPair sites.length oc, env⟩ [.init] with
    | error g =>
      exfalso
      have herr := itLoop_error_run d above sites.length h2 maxIt 0 e0 _ _ g hFr hl
      simp only at herr
      have : ∀ (n c : Nat) (s : List S) (e : Option ℝ), (startPair sites.length oc = c ∨ startPair sites.length oc + 1 = c) →
          I s c → RunAll d P (tours sites.length (startPair sites.length oc) n) s →
          ∃ y, d.run (tours sites.length (startPair sites.length oc) n) (e, s) = .ok y := by
        intro n
        induction n with
        | zero => intro c s e _ _ _; exact ⟨_, rfl⟩
        | succ n ih =>
          intro c s e hc hg hr
          rw [tours_succ] at hr ⊢
          obtain ⟨r1, r2⟩ := RunAll_append _ _ _ _ _ hr
          obtain ⟨f1, f2⟩ := follows_tour sites.length _ c h2 hq hc
          obtain ⟨e', s', b1, b2, _⟩ := run_steps hL _ c s e hg f1 (tour_inside sites.length _ h2 hq) r1
          rw [run_append, b1]
          exact ih _ s' e' f2 b2 (r2 _ _ b1)
      obtain ⟨y, hy⟩ := this maxIt oc sites none hcq hg hreg
      rw [hy] at herr
      cases herr
    | ok o =>
      obtain ⟨h, conv, hH', hlast, o1, o2, o3, o4, o5⟩ := itLoop_ok d above sites.length h2 maxIt 0 e0 _ _ o hFr hl
      simp only [bind, Except.bind] at o1 ⊢
      rw [if_neg (by rw [o1]; simp)]
      by_cases hd : dense = true ∧ startPair sites.length oc = 0
      · obtain ⟨k, hk⟩ := List.mem_iff_getElem?.1 (List.mem_of_getLast? hlast)
        obtain ⟨⟨c', _, hg'⟩, _⟩ := key h e0 hH'.start hH'.bound hH'.sweep k _ hk
        obtain ⟨s', oc', e1⟩ := hmove hd.1 _ _ hg'
        simp only at e1
        rw [o1, hd.2, hd.1]
        simp only [and_self, if_true, ne_eq, one_ne_zero, not_false_eq_true]
        rw [e1]
        exact ⟨_, rfl⟩
      · simp only [o1, hd, if_false, ne_eq, not_true_eq_false]
        exact ⟨_, rfl⟩
  obtain ⟨⟨e, fin, oc', log⟩, hr⟩ := hret
  obtain ⟨h, conv, s, last, a, b, fi, lg, _⟩ := dmrg_ok dense d dflt above zeroNorm moveOc e0 maxIt sites oc
    h2 ho hsm e fin oc' log hr
  have key := key h e0 a.start a.bound a.sweep
  have hlen : 2 ≤ h.length := by
    cases conv with
    | true => obtain ⟨k, x, y, hk, _⟩ := a.stops rfl; omega
    | false => have := (a.limit rfl).1; omega
  have hlastk : h[h.length - 1]? = some (e, s) := by rw [← List.getLast?_eq_getElem?]; exact b
  refine ⟨e, fin, oc', log, s, h, hr, a.start, hlen, a.bound, hlastk, fi, fun k x hx => (key k x hx).1,
    fun k x y hx hy => (key (k + 1) y hy).2.2 k x rfl hx, ?_⟩
  intro n x s1
  rw [lg]
  unfold logOf
  simp only [List.mem_append, List.mem_cons, List.not_mem_nil, or_false, reduceCtorEq, false_or, List.mem_map]
  constructor
  · rintro ⟨p, hp, heq⟩
    injection heq with q1 q2 q3
    rw [List.mem_zipIdx_iff_getElem?] at hp
    rw [List.getElem?_drop] at hp
    rw [← q1, ← q2, ← q3, Nat.add_comm]
    exact hp
  · intro hx
    refine ⟨((x, s1), n), ?_, rfl⟩
    rw [List.mem_zipIdx_iff_getElem?, List.getElem?_drop, Nat.add_comm]
    exact hx

end DM
end QuantiT
