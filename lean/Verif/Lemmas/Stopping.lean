import Verif.Props.Dmrg
import Verif.Model.Stopping
import Verif.Spec.Stopping
import Mathlib.Tactic.Linarith
import Mathlib.Tactic.FieldSimp
/-
How long a run goes on.
-/
namespace QuantiT.DM
open Spec
variable {S E : Type}

theorem energies_append {En : Type} (a b : List (Event S En)) : energies (a ++ b) = energies a ++ energies b := by
  induction a with
  | nil => rfl
  | cons e a ih => cases e <;> simp [energies, ih]

theorem energies_iterations {En : Type} (l : List (En × List S)) (k : Nat) :
    energies ((l.zipIdx k).map fun p => (Event.iteration p.2 p.1.1 p.1.2 : Event S En)) = l.map Prod.fst := by
  induction l generalizing k with
  | nil => rfl
  | cons x l ih => simp [energies, ih (k + 1)]

theorem energies_logOf {En : Type} (h : List (En × List S)) (last : Nat) (e : En) (fin : List S) : energies (logOf h last e fin) = (h.drop 1).map Prod.fst := by
  unfold logOf
  rw [energies_append, energies_append, energies_iterations]
  simp [energies]

theorem mem_logOf {En : Type} {h : List (En × List S)} {last : Nat} {e : En} {fin : List S} {n : Nat} {x : En × List S} (hx : h[n + 1]? = some x) :
    Event.iteration n x.1 x.2 ∈ logOf h last e fin := by
  unfold logOf
  refine List.mem_append_left _ (List.mem_append_right _ (List.mem_map.2 ⟨(x, n), ?_, rfl⟩))
  rw [List.mem_zipIdx_iff_getElem?, List.getElem?_drop, Nat.add_comm]
  exact hx

/-- A run of which every sweep that is not the last lowers the energy by `c` or more makes few sweeps, and ends because the energy
settled if the limit is above that. -/
theorem run_settles (dense : Bool) (d : Dmrg S E ℝ) (dflt : E) (above : ℝ → ℝ → Bool) (zeroNorm : List S → Bool)
    (moveOc : List S → Nat → Nat → Res (List S × Nat)) (e0 : ℝ) (maxIt : Nat) (sites : List S) (oc : Nat)
    (h2 : 2 ≤ sites.length) (ho : oc < sites.length) (hsm : sites.length < 2 ^ 63)
    (e : ℝ) (fin : List S) (oc' : Nat) (log : List (Event S ℝ))
    (hr : dmrg dense d dflt above zeroNorm moveOc e0 maxIt sites.length sites oc = .ok (e, fin, oc', log))
    (c lo up : ℝ) (hc : 0 < c) (hlu : lo ≤ up) (hb : ∀ n x s, Event.iteration n x s ∈ log → lo ≤ x ∧ x ≤ up)
    (hd : ∀ n x s x' s', Event.iteration n x s ∈ log → Event.iteration (n + 1) x' s' ∈ log → above x' x = true → x' + c ≤ x) :
    ((energies log).length : ℝ) ≤ 2 + (up - lo) / c ∧
      (2 + (up - lo) / c < maxIt → SettledAt (fun new old => above new old = false) e0 log e) := by
  obtain ⟨h, conv, s, last, hH, hlast, -, rfl, -⟩ := dmrg_ok dense d dflt above zeroNorm moveOc e0 maxIt sites oc h2 ho hsm e fin oc' log hr
  rw [energies_logOf]
  have hpos : 0 ≤ (up - lo) / c := div_nonneg (by linarith) hc.le
  have hdown : ∀ k x, h[k + 1]? = some x → k + 2 < h.length → x.1 ≤ up - k * c := by
    intro k
    induction k with
    | zero =>
      intro x hx _
      have := (hb 0 _ _ (mem_logOf hx)).2
      simpa using this
    | succ k ih =>
      intro x hx hk
      obtain ⟨y, hy⟩ : ∃ y, h[k + 1]? = some y := ⟨_, List.getElem?_eq_getElem (by omega)⟩
      obtain ⟨z, hz⟩ : ∃ z, h[k + 1 + 2]? = some z := ⟨_, List.getElem?_eq_getElem (by omega)⟩
      have h1 := ih y hy (by omega)
      have h2 := hd k _ _ _ _ (mem_logOf hy) (mem_logOf hx) (hH.goesOn (k + 1) y x z hy hx hz)
      push_cast
      linarith
  have hlen : (((h.drop 1).map Prod.fst).length : ℝ) ≤ 2 + (up - lo) / c := by
    rw [List.length_map, List.length_drop]
    by_cases h3 : h.length < 3
    · have : ((h.length - 1 : Nat) : ℝ) ≤ 2 := by
        have : h.length - 1 ≤ 2 := by omega
        exact_mod_cast this
      linarith
    · obtain ⟨y, hy⟩ : ∃ y, h[h.length - 3 + 1]? = some y := ⟨_, List.getElem?_eq_getElem (by omega)⟩
      have h1 := hdown (h.length - 3) y hy (by omega)
      have h2 := (hb _ _ _ (mem_logOf hy)).1
      have h4 : ((h.length - 1 : Nat) : ℝ) = ((h.length - 3 : Nat) : ℝ) + 2 := by
        rw [show h.length - 1 = h.length - 3 + 2 by omega]
        push_cast
        ring
      have h5 : ((h.length - 3 : Nat) : ℝ) ≤ (up - lo) / c := by
        rw [le_div_iff₀ hc]
        linarith
      rw [h4]
      linarith
  refine ⟨hlen, fun hmax => ?_⟩
  cases conv with
  | false =>
    have := (hH.limit rfl).1
    rw [List.length_map, List.length_drop, this] at hlen
    simp at hlen
    linarith
  | true =>
    obtain ⟨k, x, y, s1, s2, s3, s4⟩ := hH.stops rfl
    have hy : y = (e, s) := by
      rw [List.getLast?_eq_getElem?, s1] at hlast
      simp only [Nat.add_one_sub_one] at hlast
      rw [s3] at hlast
      exact Option.some.inj hlast
    subst hy
    refine ⟨(h.take k).map Prod.fst, x.1, ?_, s4⟩
    rw [energies_logOf]
    have hh : h = h.take k ++ [x, (e, s)] := by
      apply List.ext_getElem?
      intro i
      by_cases hi : i < k
      · rw [List.getElem?_append_left (by simp; omega), List.getElem?_take_of_lt hi]
      · rw [List.getElem?_append_right (by simp; omega)]
        simp only [List.length_take, show min k h.length = k by omega]
        rcases Nat.lt_or_ge i (k + 2) with h | h
        · obtain rfl | rfl : i = k ∨ i = k + 1 := by omega
          · simpa using s2
          · simpa using s3
        · rw [List.getElem?_eq_none (by omega), List.getElem?_eq_none (by simp; omega)]
    have h0 := hH.start
    obtain ⟨a, t, rfl⟩ : ∃ a t, h = a :: t := by
      cases h with
      | nil => simp at h0
      | cons a t => exact ⟨a, t, rfl⟩
    simp at h0
    subst h0
    have := congrArg (List.map Prod.fst) hh
    rw [List.map_append] at this
    simpa using this

/-- A run whose first energy is close to the one it is compared with makes one sweep. -/
theorem run_one (dense : Bool) (d : Dmrg S E ℝ) (dflt : E) (above : ℝ → ℝ → Bool) (zeroNorm : List S → Bool)
    (moveOc : List S → Nat → Nat → Res (List S × Nat)) (e0 : ℝ) (maxIt : Nat) (sites : List S) (oc : Nat)
    (h2 : 2 ≤ sites.length) (ho : oc < sites.length) (hsm : sites.length < 2 ^ 63)
    (e : ℝ) (fin : List S) (oc' : Nat) (log : List (Event S ℝ))
    (hr : dmrg dense d dflt above zeroNorm moveOc e0 maxIt sites.length sites oc = .ok (e, fin, oc', log))
    (hfar : ∀ x s, Event.iteration 0 x s ∈ log → above x e0 = false) : (energies log).length ≤ 1 := by
  obtain ⟨h, conv, s, last, hH, hlast, -, rfl, -⟩ := dmrg_ok dense d dflt above zeroNorm moveOc e0 maxIt sites oc h2 ho hsm e fin oc' log hr
  rw [energies_logOf, List.length_map, List.length_drop]
  by_contra hl
  obtain ⟨y, hy⟩ : ∃ y, h[1]? = some y := ⟨_, List.getElem?_eq_getElem (by omega)⟩
  obtain ⟨z, hz⟩ : ∃ z, h[2]? = some z := ⟨_, List.getElem?_eq_getElem (by omega)⟩
  have := hH.goesOn 0 _ _ _ hH.start hy hz
  rw [hfar _ _ (mem_logOf hy)] at this
  cases this

theorem mem_energies {En : Type} {x : En} {log : List (Event S En)} : x ∈ energies log ↔ ∃ n s, Event.iteration n x s ∈ log := by
  induction log with
  | nil => simp [energies]
  | cons a l ih => cases a <;> simp [energies, ih, exists_or]

theorem SettledAt.mem {En : Type} {p : En → En → Prop} {e0 e : En} {log : List (Event S En)} (h : SettledAt p e0 log e) : e ∈ energies log := by
  obtain ⟨l, x, h1, -⟩ := h
  cases l with
  | nil => simp at h1; simp [h1.2]
  | cons a l => simp at h1; simp [h1.2]

/-- Every sweep of a run ends with the energy `c` if every update does. -/
theorem run_const {d : Dmrg S E ℝ} {I : List S → Prop} {c : ℝ} {q : Nat} (hI : ∀ s f r, I s → d.fresh q f s = .ok r → r.1 = c ∧ I r.2) :
    ∀ (l : List (Nat × Bool)) (e : Option ℝ) (s : List S) (y : Option ℝ × List S), (∀ p ∈ l, p.1 = q) → I s → d.run l (e, s) = .ok y →
      I y.2 ∧ (y.1 = e ∨ y.1 = some c) ∧ (l ≠ [] → y.1 = some c)
  | [], e, s, y, _, hs, hy => by cases hy; exact ⟨hs, .inl rfl, fun h => absurd rfl h⟩
  | (o, f) :: l, e, s, y, hl, hs, hy => by
    have ho : o = q := hl (o, f) (by simp)
    subst ho
    unfold Dmrg.run at hy
    cases hr : d.fresh o f s with
    | error g => simp only [hr, bind, Except.bind] at hy; cases hy
    | ok r =>
      simp only [hr, bind, Except.bind] at hy
      obtain ⟨h1, h2⟩ := hI s f r hs hr
      obtain ⟨a1, a2, a3⟩ := run_const hI l (some r.1) r.2 y (fun p hp => hl p (by simp [hp])) h2 hy
      rw [h1] at a2
      have : y.1 = some c := a2.elim id id
      exact ⟨a1, .inr this, fun _ => this⟩

theorem energies_const {d : Dmrg S E ℝ} {I : List S → Prop} {c : ℝ} {q : Nat} (hI : ∀ s f r, I s → d.fresh q f s = .ok r → r.1 = c ∧ I r.2)
    (dense : Bool) (dflt : E) (above : ℝ → ℝ → Bool) (zeroNorm : List S → Bool)
    (moveOc : List S → Nat → Nat → Res (List S × Nat)) (e0 : ℝ) (maxIt : Nat) (sites : List S) (oc : Nat)
    (h2 : 2 ≤ sites.length) (ho : oc < sites.length) (hsm : sites.length < 2 ^ 63)
    (e : ℝ) (fin : List S) (oc' : Nat) (log : List (Event S ℝ))
    (hr : dmrg dense d dflt above zeroNorm moveOc e0 maxIt sites.length sites oc = .ok (e, fin, oc', log)) (hs : I sites)
    (ht : ∀ p ∈ tour sites.length (startPair sites.length oc), p.1 = q) (hne : tour sites.length (startPair sites.length oc) ≠ []) :
    ∀ x ∈ energies log, x = c := by
  obtain ⟨h, conv, s, last, hH, hlast, -, rfl, -⟩ := dmrg_ok dense d dflt above zeroNorm moveOc e0 maxIt sites oc h2 ho hsm e fin oc' log hr
  have key : ∀ k y, h[k]? = some y → I y.2 ∧ (k ≠ 0 → y.1 = c) := by
    intro k
    induction k with
    | zero => intro y hy; rw [hH.start] at hy; cases hy; exact ⟨hs, fun h => absurd rfl h⟩
    | succ k ih =>
      intro y hy
      obtain ⟨x, hx⟩ : ∃ x, h[k]? = some x := ⟨_, List.getElem?_eq_getElem (by have := (List.getElem?_eq_some_iff.1 hy).1; omega)⟩
      obtain ⟨a1, -, a3⟩ := run_const hI _ _ _ _ ht (ih x hx).1 (hH.sweep k x y hx hy)
      exact ⟨a1, fun _ => by simpa using a3 hne⟩
  intro x hx
  rw [energies_logOf, List.mem_map] at hx
  obtain ⟨y, hy, rfl⟩ := hx
  obtain ⟨i, hi⟩ := List.mem_iff_getElem?.1 hy
  rw [List.getElem?_drop] at hi
  exact (key _ _ hi).2 (by omega)

/-- A run none of whose changes of the energy is small makes all the sweeps it may. -/
theorem run_all (dense : Bool) (d : Dmrg S E ℝ) (dflt : E) (above : ℝ → ℝ → Bool) (zeroNorm : List S → Bool)
    (moveOc : List S → Nat → Nat → Res (List S × Nat)) (e0 : ℝ) (maxIt : Nat) (sites : List S) (oc : Nat)
    (h2 : 2 ≤ sites.length) (ho : oc < sites.length) (hsm : sites.length < 2 ^ 63)
    (e : ℝ) (fin : List S) (oc' : Nat) (log : List (Event S ℝ))
    (hr : dmrg dense d dflt above zeroNorm moveOc e0 maxIt sites.length sites oc = .ok (e, fin, oc', log))
    (hfirst : ∀ x s, Event.iteration 0 x s ∈ log → above x e0 = true)
    (hlater : ∀ n x s x' s', Event.iteration n x s ∈ log → Event.iteration (n + 1) x' s' ∈ log → above x' x = true) :
    (energies log).length = maxIt := by
  obtain ⟨h, conv, s, last, hH, hlast, -, rfl, -⟩ := dmrg_ok dense d dflt above zeroNorm moveOc e0 maxIt sites oc h2 ho hsm e fin oc' log hr
  rw [energies_logOf, List.length_map, List.length_drop]
  cases conv with
  | false => rw [(hH.limit rfl).1]; omega
  | true =>
    exfalso
    obtain ⟨k, x, y, s1, s2, s3, s4⟩ := hH.stops rfl
    cases k with
    | zero =>
      rw [hH.start] at s2
      cases s2
      rw [hfirst _ _ (mem_logOf s3)] at s4
      cases s4
    | succ k =>
      rw [hlater k _ _ _ _ (mem_logOf s2) (mem_logOf s3)] at s4
      cases s4
end QuantiT.DM
