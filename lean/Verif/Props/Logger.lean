import Verif.Model.Logger
import Verif.Props.Dmrg
import Mathlib.Algebra.BigOperators.Group.List.Basic
import Mathlib.Tactic.Abel
import Mathlib.Algebra.Group.Int.Defs
/-
C105: the loggers of the library record the run they watch.
-/
namespace QuantiT
namespace DM
open Spec
variable {S E En K : Type}

theorem hearAll_append {L : Type} (hear : L → Event S En → Res L) (l : L) (a b : List (Event S En)) :
    hearAll hear l (a ++ b) = (hearAll hear l a).bind fun l' => hearAll hear l' b := by
  induction a generalizing l with
  | nil => rfl
  | cons e a ih =>
    simp only [List.cons_append, hearAll, bind, Except.bind]
    cases hear l e with
    | error x => rfl
    | ok l' => exact ih l'

theorem middleBond_ok (ends : S → Nat × Nat) (sites : List S) (h : sites ≠ []) :
    ∃ A, sites[sites.length / 2]? = some A ∧ middleBond ends sites = .ok (max (ends A).1 (ends A).2) := by
  have hl : sites.length / 2 < sites.length := by
    have := List.length_pos_iff.2 h
    omega
  refine ⟨_, List.getElem?_eq_getElem hl, ?_⟩
  unfold middleBond
  rw [List.getElem?_eq_getElem hl]

/-- The iterations, one after the other. -/
theorem hear_iterations [Sub K] [Zero K] (ends : S → Nat × Nat) (clock : Nat → K) (maxIt : Nat) (h : List (En × List S)) (hne : ∀ x ∈ h, x.2 ≠ [])
    (n : Nat) (hn : n + h.length ≤ maxIt) (l : LogSweeps K) (lt : l.times.length = maxIt) (lb : l.bonds.length = maxIt) (t0 : Nat)
    (ll : l.last = some (clock t0)) (lk : l.ticks = t0 + 1) :
    ∃ l', hearAll (LogSweeps.hear ends clock maxIt) l ((h.zipIdx n).map fun p => Event.iteration p.2 p.1.1 p.1.2) = .ok l' ∧
      l'.times.length = maxIt ∧ l'.bonds.length = maxIt ∧
      (∀ k x, h[k]? = some x → l'.bonds[n + k]? = (middleBond ends x.2).toOption ∧ l'.times[n + k]? = some (clock (t0 + k + 1) - clock (t0 + k))) ∧
      ∀ k, k < n ∨ n + h.length ≤ k → l'.bonds[k]? = l.bonds[k]? ∧ l'.times[k]? = l.times[k]? := by
  induction h generalizing n l t0 with
  | nil => exact ⟨l, rfl, lt, lb, by simp, fun _ _ => ⟨rfl, rfl⟩⟩
  | cons x h ih =>
    obtain ⟨A, -, hm⟩ := middleBond_ok ends x.2 (hne x (by simp))
    simp only [List.length_cons] at hn
    simp only [List.zipIdx_cons, List.map_cons, hearAll, bind, Except.bind, LogSweeps.hear, ll, hm]
    rw [if_pos ⟨by omega, by omega⟩]
    obtain ⟨l', h1, h2, h3, h4, h5⟩ := ih (fun y hy => hne y (by simp [hy])) (n + 1) (by omega)
      { l with itNum := some n, middle := some (max (ends A).1 (ends A).2), last := some (clock l.ticks), bonds := l.bonds.set n (max (ends A).1 (ends A).2), times := l.times.set n (clock l.ticks - clock t0), ticks := l.ticks + 1 }
      (by simp [lt]) (by simp [lb]) (t0 + 1) (by simp [lk]) (by simp [lk])
    refine ⟨l', h1, h2, h3, ?_, ?_⟩
    · intro k y hk
      cases k with
      | zero =>
        cases hk
        obtain ⟨g1, g2⟩ := h5 n (.inl (by omega))
        rw [Nat.add_zero, g1, g2, hm, lk]
        simp only [List.getElem?_set, if_true]
        rw [if_pos (by omega), if_pos (by omega)]
        exact ⟨rfl, rfl⟩
      | succ k =>
        have := h4 k y (by simpa using hk)
        rw [show n + 1 + k = n + (k + 1) by omega, show t0 + 1 + k = t0 + (k + 1) by omega] at this
        exact this
    · intro k hk
      simp only [List.length_cons] at hk
      obtain ⟨g1, g2⟩ := h5 k (by omega)
      rw [g1, g2]
      simp only [List.getElem?_set]
      rw [if_neg (by omega), if_neg (by omega)]
      exact ⟨rfl, rfl⟩

/-- Every state of a history has as many tensors as the first. -/
theorem history_length {d : Dmrg S E En} {above : En → En → Bool} {len q max : Nat} {e0 : En} {sites : List S} {h : List (En × List S)} {conv : Bool}
    (hh : History d above len q max e0 sites h conv) (k : Nat) (x : En × List S) (hk : h[k]? = some x) : x.2.length = sites.length := by
  induction k generalizing x with
  | zero =>
    rw [hh.start] at hk
    cases hk
    rfl
  | succ k ih =>
    obtain ⟨y, hy⟩ : ∃ y, h[k]? = some y := by
      have := (List.getElem?_eq_some_iff.1 hk).1
      exact ⟨_, List.getElem?_eq_getElem (by omega)⟩
    rw [← ih y hy]
    exact run_length d _ _ _ (hh.sweep k y x hy hk)

theorem fin_length {d : Dmrg S E En} {above : En → En → Bool} {len q max : Nat} {e0 : En} {sites : List S} {h : List (En × List S)} {conv : Bool}
    (hh : History d above len q max e0 sites h conv) {moveOc : List S → Nat → Nat → Res (List S × Nat)}
    (hm : ∀ s a b r, moveOc s a b = .ok r → r.1.length = s.length) {dense : Bool} {p : Nat} {e : En} {s fin : List S} {oc : Nat}
    (hl : h.getLast? = some (e, s)) (hf : Finish dense moveOc p s fin oc) : fin.length = sites.length := by
  have hs : s.length = sites.length := by
    rw [List.getLast?_eq_getElem?] at hl
    exact history_length hh _ _ hl
  unfold Finish at hf
  split_ifs at hf
  · exact (hm _ _ _ _ hf).trans hs
  · rw [hf.1, hs]

/-- **C105**, `dmrg_log_simple`: after a run it has the number given at the end and the larger bond of the site in the middle of the final state,
whatever it contained before. -/
theorem C105_simple (dense : Bool) (d : Dmrg S E En) (dflt : E) (above : En → En → Bool)
    (zeroNorm : List S → Bool) (moveOc : List S → Nat → Nat → Res (List S × Nat)) (hm : ∀ s a b r, moveOc s a b = .ok r → r.1.length = s.length)
    (e0 : En) (maxIt : Nat) (sites : List S) (oc : Nat) (h2 : 2 ≤ sites.length) (ho : oc < sites.length) (hsm : sites.length < 2 ^ 63)
    (e : En) (fin : List S) (oc' : Nat) (log : List (Event S En))
    (hr : dmrg dense d dflt above zeroNorm moveOc e0 maxIt sites.length sites oc = .ok (e, fin, oc', log))
    (ends : S → Nat × Nat) (l0 : LogSimple) :
    ∃ (h : List (En × List S)) (conv : Bool) (last : Nat) (A : S), History d above sites.length (startPair sites.length oc) maxIt e0 sites h conv ∧ fin[sites.length / 2]? = some A ∧
      hearAll (LogSimple.hear ends) l0 log = .ok ⟨some last, some (max (ends A).1 (ends A).2)⟩ ∧
      (conv = true → last + 2 = h.length) ∧ (conv = false → last = maxIt) := by
  obtain ⟨h, conv, s, last, a, b, f, c, g⟩ := dmrg_ok dense d dflt above zeroNorm moveOc e0 maxIt sites oc h2 ho hsm e fin oc' log hr
  have hfl := fin_length a hm b f
  obtain ⟨A, hA, hmid⟩ := middleBond_ok ends fin (by rintro rfl; simp at hfl; omega)
  rw [hfl] at hA
  refine ⟨h, conv, last, A, a, hA, ?_, ?_, ?_⟩
  · have hit : ∀ (es : List ((En × List S) × Nat)) (l : LogSimple),
        hearAll (LogSimple.hear ends) l (es.map fun p => Event.iteration p.2 p.1.1 p.1.2) = .ok l := by
      intro es
      induction es with
      | nil => intro l; rfl
      | cons x es ih => intro l; exact ih l
    rw [c, logOf, hearAll_append, hearAll_append]
    simp only [hearAll, LogSimple.hear, bind, Except.bind, hit, hmid]
  · intro hc; subst hc; simp at g; omega
  · intro hc
    have := (a.limit hc).1
    subst hc; simp at g; omega

/-- **C105**, `dmrg_log_sweeptime`: it never writes out of its lists, which have one place per iteration allowed.  After a run the first places, one
per sweep made, have the time between the two readings of the clock around that sweep and the larger bond of the site in the middle of the
state after it; the other places are zero.  Whatever it contained before. -/
theorem C105_sweeptime [AddCommGroup K] (dense : Bool) (d : Dmrg S E En) (dflt : E) (above : En → En → Bool)
    (zeroNorm : List S → Bool) (moveOc : List S → Nat → Nat → Res (List S × Nat)) (hm : ∀ s a b r, moveOc s a b = .ok r → r.1.length = s.length)
    (e0 : En) (maxIt : Nat) (sites : List S) (oc : Nat) (h2 : 2 ≤ sites.length) (ho : oc < sites.length) (hsm : sites.length < 2 ^ 63)
    (e : En) (fin : List S) (oc' : Nat) (log : List (Event S En))
    (hr : dmrg dense d dflt above zeroNorm moveOc e0 maxIt sites.length sites oc = .ok (e, fin, oc', log))
    (ends : S → Nat × Nat) (clock : Nat → K) (l0 : LogSweeps K) :
    ∃ (h : List (En × List S)) (conv : Bool) (last : Nat) (A : S) (l : LogSweeps K), History d above sites.length (startPair sites.length oc) maxIt e0 sites h conv ∧ fin[sites.length / 2]? = some A ∧
      hearAll (LogSweeps.hear ends clock maxIt) l0 log = .ok l ∧ l.itNum = some last ∧ l.middle = some (max (ends A).1 (ends A).2) ∧
      (conv = true → last + 2 = h.length) ∧ (conv = false → last = maxIt) ∧ l.times.length = maxIt ∧ l.bonds.length = maxIt ∧
      (∀ k x, h[k + 1]? = some x → ∃ B, x.2[sites.length / 2]? = some B ∧ l.bonds[k]? = some (max (ends B).1 (ends B).2) ∧
        l.times[k]? = some (clock (l0.ticks + k + 1) - clock (l0.ticks + k))) ∧
      (∀ k, h.length ≤ k + 1 → k < maxIt → l.bonds[k]? = some 0 ∧ l.times[k]? = some 0) ∧
      l.times.sum = clock (l0.ticks + (h.length - 1)) - clock l0.ticks := by
  obtain ⟨h, conv, s, last, a, b, f, c, g⟩ := dmrg_ok dense d dflt above zeroNorm moveOc e0 maxIt sites oc h2 ho hsm e fin oc' log hr
  have hfl := fin_length a hm b f
  obtain ⟨A, hA, hmid⟩ := middleBond_ok ends fin (by rintro rfl; simp at hfl; omega)
  rw [hfl] at hA
  have hb := a.bound
  have hpos : 0 < h.length := (List.getElem?_eq_some_iff.1 a.start).1
  have hlen : ∀ (k : Nat) (x : En × List S), (h.drop 1)[k]? = some x → x.2.length = sites.length := by
    intro k x hk
    rw [List.getElem?_drop] at hk
    exact history_length a _ _ hk
  obtain ⟨l, i1, i2, i3, i4, i5⟩ := hear_iterations ends clock maxIt (h.drop 1) (by
      intro x hx h0
      obtain ⟨k, hk⟩ := List.mem_iff_getElem?.1 hx
      have := hlen k x hk
      rw [h0] at this
      simp at this
      omega) 0 (by simp; omega)
    { l0 with last := some (clock l0.ticks), times := List.replicate maxIt 0, bonds := List.replicate maxIt 0, ticks := l0.ticks + 1 }
    (by simp) (by simp) l0.ticks rfl rfl
  have htimes : ∀ (k : Nat) (x : En × List S), h[k + 1]? = some x → ∃ B, x.2[sites.length / 2]? = some B ∧ l.bonds[k]? = some (max (ends B).1 (ends B).2) ∧
        l.times[k]? = some (clock (l0.ticks + k + 1) - clock (l0.ticks + k)) := by
    intro k x hk
    have hk' : (h.drop 1)[k]? = some x := by rw [List.getElem?_drop, Nat.add_comm]; exact hk
    obtain ⟨j1, j2⟩ := i4 k x hk'
    have hxl := hlen k x hk'
    obtain ⟨B, hB, hBm⟩ := middleBond_ok ends x.2 (by intro h0; rw [h0] at hxl; simp at hxl; omega)
    rw [hxl] at hB
    rw [Nat.zero_add] at j1 j2
    exact ⟨B, hB, by rw [j1, hBm]; rfl, j2⟩
  have hzero : ∀ k, h.length ≤ k + 1 → k < maxIt → l.bonds[k]? = some 0 ∧ l.times[k]? = some 0 := by
    intro k hk hk'
    obtain ⟨j1, j2⟩ := i5 k (.inr (by simp; omega))
    rw [j1, j2]
    simp [List.getElem?_replicate, hk']
  refine ⟨h, conv, last, A, { l with itNum := some last, middle := some (max (ends A).1 (ends A).2) }, a, hA, ?_, rfl, rfl, ?_, ?_, i2, i3, htimes, hzero, ?_⟩
  · rw [c, logOf, hearAll_append, hearAll_append]
    simp only [hearAll, LogSweeps.hear, bind, Except.bind]
    rw [i1]
    simp only [hearAll, LogSweeps.hear, bind, Except.bind, hmid]
  · intro hc; subst hc; simp at g; omega
  · intro hc
    have := (a.limit hc).1
    subst hc; simp at g; omega
  · show l.times.sum = _
    have key : ∀ m, m ≤ maxIt → (l.times.take m).sum = clock (l0.ticks + min m (h.length - 1)) - clock l0.ticks := by
      intro m
      induction m with
      | zero => intro _; simp
      | succ m ih =>
        intro hm'
        obtain ⟨y, hy⟩ : ∃ y, l.times[m]? = some y := ⟨_, List.getElem?_eq_getElem (by omega)⟩
        rw [List.take_add_one, hy, Option.toList_some, List.sum_append, List.sum_singleton, ih (by omega)]
        by_cases hmh : m + 1 < h.length
        · obtain ⟨-, -, -, e1⟩ := htimes m _ (List.getElem?_eq_getElem hmh)
          rw [e1] at hy
          cases hy
          rw [Nat.min_eq_left (by omega), Nat.min_eq_left (by omega), Nat.add_assoc]
          abel
        · have e1 := (hzero m (by omega) (by omega)).2
          rw [e1] at hy
          cases hy
          rw [Nat.min_eq_right (by omega), Nat.min_eq_right (by omega), add_zero]
    have := key maxIt le_rfl
    rw [List.take_of_length_le (by omega), Nat.min_eq_right (by omega)] at this
    exact this

/-- Beside C105: the run of two sweeps of Props/Dmrg, watched by a logger that is used for the second time.  Tensors are tags and the bonds made up;
the clock is read at 10, 11, 14, ... -/
example : ∃ e fin oc log, tagRun false 1 2 = .ok (e, fin, oc, log) ∧
    hearAll (LogSweeps.hear (fun A => (A, A + 1)) (fun k => (10 + k * k : Int)) 2) ⟨some 7, some 3, none, [5, 6, 7], [8], 0⟩ log =
      .ok ⟨some 2, some 1, some 14, [1, 3], [1, 1], 3⟩ := ⟨_, _, _, _, rfl, rfl⟩

example : ∃ e fin oc log h conv last A l, tagRun false 1 2 = .ok (e, fin, oc, log) ∧
    History tagged (fun _ _ => true) 4 1 2 100000 [0, 0, 0, 0] h conv ∧ fin[2]? = some A ∧
    hearAll (LogSweeps.hear (fun A => (A, A + 1)) (fun k => (10 + k * k : Int)) 2) ⟨none, none, none, [], [], 0⟩ log = .ok l ∧ l.itNum = some last := by
  obtain ⟨h, conv, last, A, l, h1, h2, h3, h4, -⟩ := C105_sweeptime false tagged 0 (fun _ _ => true) (fun _ => false) (fun s _ j => .ok ((s.set 1 2).set 0 0, j))
    (fun s a b r h => by cases h; simp) 100000 2 [0, 0, 0, 0] 1 (by decide) (by decide) (by decide) 33 [1, 1, 0, 2] 1
    [.init, .iteration 0 33 [1, 1, 0, 2], .iteration 1 33 [1, 1, 0, 2], .done 2 33 [1, 1, 0, 2]] rfl (fun A => (A, A + 1))
    (fun k => (10 + k * k : Int)) ⟨none, none, none, [], [], 0⟩
  exact ⟨_, _, _, _, h, conv, last, A, l, rfl, h1, h2, h3, h4⟩

end DM
end QuantiT
