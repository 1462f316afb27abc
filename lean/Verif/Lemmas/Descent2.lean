import Verif.Props.Descent
/-
Whole runs of any DMRG whose local updates lower an energy, without the move of the center at the end.
-/
namespace QuantiT
namespace DM
open Spec
variable {S E : Type}

/-- Every update of a run starts from a chain with the property `P`. -/
def RunAll (d : Dmrg S E ℝ) (P : Nat → List S → Prop) : List (Nat × Bool) → List S → Prop
  | [], _ => True
  | (o, f) :: l, s => P o s ∧ ∀ r, d.fresh o f s = .ok r → RunAll d P l r.2

theorem RunAll_append (d : Dmrg S E ℝ) (P : Nat → List S → Prop) : ∀ (l l' : List (Nat × Bool)) (s : List S),
    RunAll d P (l ++ l') s → RunAll d P l s ∧ ∀ e y, d.run l (e, s) = .ok y → RunAll d P l' y.2
  | [], l', s, h => ⟨trivial, fun e y hy => by cases hy; exact h⟩
  | (o, f) :: l, l', s, h => by
    refine ⟨⟨h.1, fun r hr => (RunAll_append d P l l' r.2 (h.2 r hr)).1⟩, fun e y hy => ?_⟩
    unfold Dmrg.run at hy
    cases hf : d.fresh o f s with
    | error g => simp only [hf] at hy; cases hy
    | ok r =>
      simp only [hf] at hy
      exact (RunAll_append d P l l' r.2 (h.2 r hf)).2 _ y hy

/-- An update from a chain with the invariant and the property succeeds, returns the energy of the new chain, keeps the invariant
and does not raise the energy. -/
def Lowers (d : Dmrg S E ℝ) (P : Nat → List S → Prop) (I : List S → Nat → Prop) (en : List S → ℝ) (len : Nat) : Prop :=
  ∀ s c o f, I s c → (o = c ∨ o + 1 = c) → o + 1 < len → P o s →
    ∃ s', d.fresh o f s = .ok (en s', s') ∧ I s' (if f then o + 1 else o) ∧ en s' ≤ en s

variable {d : Dmrg S E ℝ} {P : Nat → List S → Prop} {I : List S → Nat → Prop} {en : List S → ℝ} {len : Nat}

theorem run_lowers (hL : Lowers d P I en len) : ∀ (l : List (Nat × Bool)) (c : Nat) (s : List S) (e : Option ℝ),
    I s c → Follows c l → (∀ p ∈ l, p.1 + 1 < len) → RunAll d P l s →
    ∃ e' s', d.run l (e, s) = .ok (e', s') ∧ I s' (after c l) ∧ en s' ≤ en s ∧ (l ≠ [] → e' = some (en s'))
  | [], c, s, e, hg, _, _, _ => ⟨e, s, rfl, hg, le_refl _, fun h => absurd rfl h⟩
  | (o, f) :: l, c, s, e, hg, hf, hin, hr => by
    obtain ⟨s1, a1, a2, a3⟩ := hL s c o f hg hf.1 (hin (o, f) (by simp)) hr.1
    obtain ⟨e', s', b1, b2, b3, b4⟩ := run_lowers hL l _ s1 (some (en s1)) a2 hf.2
      (fun p hp => hin p (List.mem_cons_of_mem _ hp)) (hr.2 _ a1)
    refine ⟨e', s', ?_, b2, b3.trans a3, fun _ => ?_⟩
    · unfold Dmrg.run
      rw [a1]
      exact b1
    · cases l with
      | nil => cases b1; rfl
      | cons p l => exact b4 (by simp)

theorem history_lowers (hL : Lowers d P I en len) (q max : Nat) (h2 : 2 ≤ len) (hq : q + 2 ≤ len)
    (sites : List S) (hr : RunAll d P (tours len q max) sites) (c : Nat) (hc : q = c ∨ q + 1 = c)
    (hg : I sites c) (h : List (ℝ × List S)) (e0 : ℝ) (h0 : h[0]? = some (e0, sites)) (hl : h.length ≤ max + 1)
    (hs : ∀ k x y, h[k]? = some x → h[k + 1]? = some y → d.run (tour len q) (none, x.2) = .ok (some y.1, y.2)) :
    ∀ k x, h[k]? = some x → (∃ c, (q = c ∨ q + 1 = c) ∧ I x.2 c) ∧ RunAll d P (tours len q (max - k)) x.2 ∧
      (0 < k → x.1 = en x.2 ∧ ∃ y, h[k - 1]? = some y ∧ en x.2 ≤ en y.2) := by
  intro k
  induction k with
  | zero =>
    intro x hx
    rw [h0] at hx
    cases hx
    exact ⟨⟨c, hc, hg⟩, hr, fun h => absurd h (lt_irrefl 0)⟩
  | succ k ih =>
    intro x hx
    have hk := (List.getElem?_eq_some_iff.1 hx).1
    obtain ⟨y, hy⟩ : ∃ y, h[k]? = some y := ⟨_, List.getElem?_eq_getElem (by omega)⟩
    obtain ⟨⟨c', hc', hg'⟩, hr', _⟩ := ih y hy
    obtain ⟨m, hm⟩ : ∃ m, max - k = m + 1 := ⟨max - k - 1, by omega⟩
    rw [hm, tours_succ] at hr'
    obtain ⟨r1, r2⟩ := RunAll_append _ _ _ _ _ hr'
    obtain ⟨f1, f2⟩ := follows_tour len q c' h2 hq hc'
    obtain ⟨e', s', b1, b2, b3, b4⟩ := run_lowers hL _ c' y.2 none hg' f1 (tour_inside len q h2 hq) r1
    have hrun := hs k y x hy hx
    rw [b1] at hrun
    obtain ⟨rfl, rfl⟩ := Prod.mk.inj (Except.ok.inj hrun)
    refine ⟨⟨_, f2, b2⟩, ?_, fun _ => ⟨?_, y, by simpa using hy, b3⟩⟩
    · rw [show max - (k + 1) = m by omega]
      exact r2 none _ b1
    · exact Option.some.inj (b4 (tour_ne len q h2))

/-- A whole run. -/
theorem dmrg_lowers {sites : List S} (hL : Lowers d P I en sites.length) (h2 : 2 ≤ sites.length) (hsm : sites.length < 2 ^ 63) (oc : Nat)
    (ho : oc < sites.length) (hg : I sites oc) (dflt : E) (above : ℝ → ℝ → Bool) (zeroNorm : List S → Bool)
    (moveOc : List S → Nat → Nat → Res (List S × Nat)) (e0 : ℝ) (maxIt : Nat) (hmax : 1 ≤ maxIt)
    (hreg : RunAll d P (tours sites.length (startPair sites.length oc) maxIt) sites) :
    ∃ e fin log, dmrg false d dflt above zeroNorm moveOc e0 maxIt sites.length sites oc
        = .ok (e, fin, startPair sites.length oc, log) ∧
      (I fin (startPair sites.length oc) ∨ I fin (startPair sites.length oc + 1)) ∧ e = en fin ∧ e ≤ en sites ∧
      (∀ n x s, Event.iteration n x s ∈ log → x = en s ∧ (∃ c, I s c) ∧ e ≤ x ∧ x ≤ en sites) ∧
      (∀ n x s x' s', Event.iteration n x s ∈ log → Event.iteration (n + 1) x' s' ∈ log → x' ≤ x) := by
  have hq : startPair sites.length oc + 2 ≤ sites.length := by unfold startPair; split <;> omega
  have hcq : startPair sites.length oc = oc ∨ startPair sites.length oc + 1 = oc := by unfold startPair; split <;> omega
  have key := fun h e0 h0 hl hs => history_lowers hL (startPair sites.length oc) maxIt h2 hq sites hreg oc hcq hg h e0 h0 hl hs
  have hret : ∃ r, dmrg false d dflt above zeroNorm moveOc e0 maxIt sites.length sites oc = .ok r := by
    obtain ⟨env, hFr, hE⟩ := dmrg_unfold false d dflt above zeroNorm moveOc e0 maxIt sites oc h2 ho hsm
    rw [hE, if_neg (by simp)]
    cases hl : itLoop d above (sites.length - 1) (sites.length - 2) (nUpd sites.length) maxIt 0 e0
          (dir sites.length (startPair sites.length oc)) ⟨sites, startPair sites.length oc, env⟩ [.init] with
    | error g =>
      exfalso
      have herr := itLoop_error_run d above sites.length h2 maxIt 0 e0 _ _ g hFr hl
      simp only at herr
      have : ∀ (n c : Nat) (s : List S) (e : Option ℝ), (startPair sites.length oc = c ∨ startPair sites.length oc + 1 = c) →
          I s c → RunAll d P (tours sites.length (startPair sites.length oc) n) s →
          ∃ y, d.run (tours sites.length (startPair sites.length oc) n) (e, s) = .ok y := by
        intro n
        induction n with
        | zero => intro c s e _ _ _; exact ⟨_, rfl⟩
        | succ n ih =>
          intro c s e hc hg hr
          rw [tours_succ] at hr ⊢
          obtain ⟨r1, r2⟩ := RunAll_append _ _ _ _ _ hr
          obtain ⟨f1, f2⟩ := follows_tour sites.length _ c h2 hq hc
          obtain ⟨e', s', b1, b2, _⟩ := run_lowers hL _ c s e hg f1 (tour_inside sites.length _ h2 hq) r1
          rw [run_append, b1]
          exact ih _ s' e' f2 b2 (r2 _ _ b1)
      obtain ⟨y, hy⟩ := this maxIt oc sites none hcq hg hreg
      rw [hy] at herr
      cases herr
    | ok o =>
      obtain ⟨h, conv, hH', hlast, o1, o2, o3, o4, o5⟩ := itLoop_ok d above sites.length h2 maxIt 0 e0 _ _ o hFr hl
      simp only [bind, Except.bind] at o1 ⊢
      rw [if_neg (by rw [o1]; simp)]
      simp only [o1, Bool.false_eq_true, false_and, if_false, ne_eq, not_true_eq_false]
      exact ⟨_, rfl⟩
  obtain ⟨⟨e, fin, oc', log⟩, hr⟩ := hret
  obtain ⟨h, conv, s, last, a, b, fi, lg, _⟩ := dmrg_ok false d dflt above zeroNorm moveOc e0 maxIt sites oc
    h2 ho hsm e fin oc' log hr
  have key := key h e0 a.start a.bound a.sweep
  have hlen : 2 ≤ h.length := by
    cases conv with
    | true => obtain ⟨k, x, y, hk, _⟩ := a.stops rfl; omega
    | false => have := (a.limit rfl).1; omega
  have hmono : ∀ (n k : Nat) (e1 : ℝ) (s1 : List S) (e2 : ℝ) (s2 : List S), h[k]? = some (e1, s1) →
      h[k + n]? = some (e2, s2) → en s2 ≤ en s1 := by
    intro n
    induction n with
    | zero => intro k e1 s1 e2 s2 hx hy; rw [Nat.add_zero, hx] at hy; cases hy; exact le_refl _
    | succ n ih =>
      intro k e1 s1 e2 s2 hx hy
      obtain ⟨_, _, hlast⟩ := key _ (e2, s2) hy
      obtain ⟨_, ⟨e3, s3⟩, hz, hle⟩ := hlast (by omega)
      exact hle.trans (ih k e1 s1 e3 s3 hx (by simpa using hz))
  have hlastk : h[h.length - 1]? = some (e, s) := by rw [← List.getLast?_eq_getElem?]; exact b
  obtain ⟨⟨c', hc', hg'⟩, _, hpos⟩ := key _ _ hlastk
  obtain ⟨he, _⟩ := hpos (by omega)
  simp only at he hg'
  unfold Finish at fi
  rw [if_neg (by simp)] at fi
  obtain ⟨rfl, rfl⟩ := fi
  have hit : ∀ n x s1, Event.iteration n x s1 ∈ log → h[n + 1]? = some (x, s1) := by
    intro n x s1 hm
    rw [lg] at hm
    unfold logOf at hm
    simp only [List.mem_append, List.mem_cons, List.not_mem_nil, or_false, reduceCtorEq, false_or, List.mem_map] at hm
    obtain ⟨p, hp, heq⟩ := hm
    injection heq with q1 q2 q3
    rw [List.mem_zipIdx_iff_getElem?] at hp
    rw [List.getElem?_drop] at hp
    rw [← q1, ← q2, ← q3, Nat.add_comm]
    exact hp
  refine ⟨e, fin, log, hr, ?_, he, ?_, ?_, ?_⟩
  · rcases hc' with rfl | rfl
    · exact .inl hg'
    · exact .inr hg'
  · rw [he]
    exact hmono (h.length - 1) 0 _ _ e fin a.start (by rw [Nat.zero_add]; exact hlastk)
  · intro n x s1 hm
    have hx := hit n x s1 hm
    obtain ⟨⟨c1, _, hg1⟩, _, hpos1⟩ := key _ _ hx
    have hx1 := (hpos1 (by omega)).1
    simp only at hx1
    refine ⟨hx1, ⟨c1, hg1⟩, ?_, ?_⟩
    · rw [hx1, he]
      have hn1 := (List.getElem?_eq_some_iff.1 hx).1
      exact hmono (h.length - 1 - (n + 1)) (n + 1) _ _ e fin hx (by rw [show n + 1 + (h.length - 1 - (n + 1)) = h.length - 1 by omega]; exact hlastk)
    · rw [hx1]
      exact hmono (n + 1) 0 _ _ _ _ a.start (by rw [Nat.zero_add]; exact hx)
  · intro n x s1 x' s1' hm hm'
    have hx := hit n x s1 hm
    have hx' := hit (n + 1) x' s1' hm'
    obtain ⟨_, _, p1⟩ := key _ _ hx
    obtain ⟨_, _, p2⟩ := key _ _ hx'
    have q1 := (p1 (by omega)).1
    have q2 := (p2 (by omega)).1
    simp only at q1 q2
    rw [q1, q2]
    exact hmono 1 _ _ _ _ _ hx hx'

end DM
end QuantiT
