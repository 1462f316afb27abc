import Verif.Model.RandomMps
import Verif.Spec.RandomMps
import Mathlib.Tactic.Abel
import Mathlib.Tactic.Ring
import Mathlib.Tactic.Linarith
/-
C46, C47: the random strings of physical states.
-/
namespace QuantiT
namespace RM
open Spec
variable {G R : Type} [AddCommGroup G]

theorem chosen_cons {a : List G} {phys o out qs} :
    chosen (a :: phys) (o :: out) = some qs ↔ ∃ q r, a[o]? = some q ∧ chosen phys out = some r ∧ qs = q :: r := by
  simp only [chosen]
  constructor
  · intro h
    split at h
    · rename_i q r h1 h2; cases h; exact ⟨q, r, h1, h2, rfl⟩
    · cases h
  · rintro ⟨q, r, h1, h2, rfl⟩
    rw [h1, h2]

theorem chosen_length : ∀ {phys : List (List G)} {out qs}, chosen phys out = some qs →
    out.length = phys.length ∧ qs.length = phys.length
  | [], [], _, h => by cases h; simp
  | [], _ :: _, _, h => by cases h
  | _ :: _, [], _, h => by cases h
  | a :: phys, o :: out, qs, h => by
    obtain ⟨q, r, _, h2, rfl⟩ := chosen_cons.1 h
    have := chosen_length h2
    simp [this]

theorem draw_ok : ∀ (phys : List (List G)) (ρ : Nat → Nat) (sum : G), (∀ a ∈ phys, a ≠ []) →
    ∃ out qs, draw phys ρ sum = .ok (out, sum + qs.sum) ∧ chosen phys out = some qs
  | [], ρ, sum, _ => ⟨[], [], by simp [draw], rfl⟩
  | a :: phys, ρ, sum, h => by
    have ha : 0 < a.length := List.length_pos_iff.2 (h a (by simp))
    have hr : ρ 0 % a.length < a.length := Nat.mod_lt _ ha
    obtain ⟨out, qs, h1, h2⟩ := draw_ok phys (fun i => ρ (i + 1)) (sum + a[ρ 0 % a.length]) (fun b hb => h b (by simp [hb]))
    refine ⟨ρ 0 % a.length :: out, a[ρ 0 % a.length] :: qs, ?_, ?_⟩
    · have hne : ¬ a.length = 0 := by omega
      simp only [draw, if_neg hne, List.getElem?_eq_getElem hr, BT.orUb, bind, Except.bind, h1, List.sum_cons, add_assoc]
    · exact chosen_cons.2 ⟨_, _, List.getElem?_eq_getElem hr, h2, rfl⟩

/-- The candidate kept has the recorded distance, which is no larger than before nor than that of any candidate. -/
theorem candidates_inv (dist : G → G → Int) (c sum : G) (a : List G) :
    ∀ (suf : List G) (j : Nat) (st : Nat × Int), a.drop j = suf →
    (∃ q, a[st.1]? = some q ∧ st.2 = dist (sum + q) c) →
    (∃ q, a[(candidates dist c sum suf j st).1]? = some q ∧ (candidates dist c sum suf j st).2 = dist (sum + q) c) ∧
    (candidates dist c sum suf j st).2 ≤ st.2 ∧
    ∀ q ∈ suf, (candidates dist c sum suf j st).2 ≤ dist (sum + q) c
  | [], j, st, _, h => by simpa [candidates] using h
  | q :: qs, j, st, hd, h => by
    have hj : a[j]? = some q := by
      have := congrArg List.head? hd
      simpa [List.head?_drop] using this
    have hd' : a.drop (j + 1) = qs := by
      have := congrArg List.tail hd
      simpa [List.tail_drop] using this
    by_cases hlt : dist (sum + q) c < st.2
    · obtain ⟨i1, i2, i3⟩ := candidates_inv dist c sum a qs (j + 1) (j, dist (sum + q) c) hd' ⟨q, hj, rfl⟩
      simp only [candidates, if_pos hlt]
      refine ⟨i1, by dsimp only at i2; omega, ?_⟩
      intro q' hq'
      rcases List.mem_cons.1 hq' with rfl | hq'
      · exact i2
      · exact i3 q' hq'
    · obtain ⟨i1, i2, i3⟩ := candidates_inv dist c sum a qs (j + 1) st hd' h
      simp only [candidates, if_neg hlt]
      refine ⟨i1, i2, ?_⟩
      intro q' hq'
      rcases List.mem_cons.1 hq' with rfl | hq'
      · omega
      · exact i3 q' hq'

theorem adjust_ok (dist : G → G → Int) (c : G) (a : List G) (o : Nat) (q sum : G) (h : a[o]? = some q) :
    ∃ o' q', adjust dist c a o sum (dist sum c) = .ok (o', sum + -q + q', dist (sum + -q + q') c) ∧ a[o']? = some q' ∧
      dist (sum + -q + q') c ≤ dist sum c ∧ ∀ x ∈ a, dist (sum + -q + q') c ≤ dist (sum + -q + x) c := by
  have e : sum + -q + q = sum := by abel
  obtain ⟨⟨q', i1, i2⟩, i3, i4⟩ := candidates_inv dist c (sum + -q) a a 0 (o, dist sum c) (by simp) ⟨q, h, by rw [e]⟩
  refine ⟨_, q', ?_, i1, ?_, ?_⟩
  · simp only [adjust, h, BT.orUb, bind, Except.bind, i1, i2]
  · rw [← i2]; exact i3
  · rw [← i2]; exact i4

/-- One pass keeps a valid string, its total and its distance. -/
theorem pass_ok (dist : G → G → Int) (c : G) : ∀ (phys : List (List G)) (out : List Nat) (qs : List G) (base : G),
    chosen phys out = some qs →
    ∃ out' qs', pass dist c phys out (base + qs.sum) (dist (base + qs.sum) c)
        = .ok (out', base + qs'.sum, dist (base + qs'.sum) c) ∧ chosen phys out' = some qs' ∧
      dist (base + qs'.sum) c ≤ dist (base + qs.sum) c
  | [], [], qs, base, h => ⟨[], qs, by simp [pass], h, le_refl _⟩
  | [], _ :: _, _, _, h => by cases h
  | _ :: _, [], _, _, h => by cases h
  | a :: phys, o :: out, qs, base, h => by
    by_cases h0 : dist (base + qs.sum) c = 0
    · refine ⟨o :: out, qs, ?_, h, le_refl _⟩
      simp only [pass, if_pos h0]
    · obtain ⟨q, r, h1, h2, rfl⟩ := chosen_cons.1 h
      obtain ⟨o', q', a1, a2, a3, _⟩ := adjust_ok dist c a o q (base + (q :: r).sum) h1
      have e : base + (q :: r).sum + -q + q' = base + q' + r.sum := by rw [List.sum_cons]; abel
      rw [e] at a1 a3
      obtain ⟨out', qs', p1, p2, p3⟩ := pass_ok dist c phys out r (base + q') h2
      have e2 : base + q' + qs'.sum = base + (q' :: qs').sum := by rw [List.sum_cons]; abel
      refine ⟨o' :: out', q' :: qs', ?_, chosen_cons.2 ⟨_, _, a2, p2, rfl⟩, ?_⟩
      · simp only [pass, if_neg h0, bind, Except.bind, a1, p1, e2]
      · rw [← e2]; omega

theorem passes_ok (dist : G → G → Int) (hd : IsDist dist) (c : G) (phys : List (List G)) :
    ∀ (n : Nat) (out : List Nat) (qs : List G), chosen phys out = some qs →
    (∃ out', passes dist c phys n out qs.sum (dist qs.sum c) = .ok out' ∧ HasTotal phys out' c) ∨
    passes dist c phys n out qs.sum (dist qs.sum c) = Res.throw .invalidArgument
  | 0, out, qs, _ => .inr rfl
  | n + 1, out, qs, h => by
    obtain ⟨out', qs', p1, p2, _⟩ := pass_ok dist c phys out qs 0 h
    simp only [zero_add] at p1
    simp only [passes, bind, Except.bind, p1]
    by_cases h0 : dist qs'.sum c = 0
    · rw [if_pos h0]
      exact .inl ⟨out', rfl, qs', p2, (hd.zero _ _).1 h0⟩
    · rw [if_neg h0]
      exact passes_ok dist hd c phys n out' qs' p2

/-- **C46** Whatever the random numbers, the number of passes and the physical indices (each with at least one state), the
generator returns a string that picks an existing state on every site and whose charges compose to the requested total,
or throws `invalid_argument`. -/
theorem C46_total (dist : G → G → Int) (hd : IsDist dist) (phys : List (List G)) (hp : ∀ a ∈ phys, a ≠ [])
    (c : G) (nPass : Nat) (ρ : Nat → Nat) :
    (∃ out, generate dist phys c nPass ρ = .ok out ∧ HasTotal phys out c) ∨
    generate dist phys c nPass ρ = Res.throw .invalidArgument := by
  by_cases hn : nPass < 1
  · right; simp only [generate, if_pos hn]
  · obtain ⟨out, qs, h1, h2⟩ := draw_ok phys ρ 0 hp
    simp only [zero_add] at h1
    have := passes_ok dist hd c phys nPass out qs h2
    simpa only [generate, if_neg hn, bind, Except.bind, h1] using this

/-- **C46** The recorded distance is always the true one: the start and every pass end with the sum of the charges of the
string and with its distance to the requested total, and a pass never increases the distance. -/
theorem C46_distance (dist : G → G → Int) (phys : List (List G)) (hp : ∀ a ∈ phys, a ≠ []) (c : G) (ρ : Nat → Nat) :
    (∃ out qs, draw phys ρ 0 = .ok (out, qs.sum) ∧ chosen phys out = some qs) ∧
    ∀ out qs, chosen phys out = some qs →
      ∃ out' qs', pass dist c phys out qs.sum (dist qs.sum c) = .ok (out', qs'.sum, dist qs'.sum c) ∧
        chosen phys out' = some qs' ∧ dist qs'.sum c ≤ dist qs.sum c := by
  refine ⟨?_, ?_⟩
  · obtain ⟨out, qs, h1, h2⟩ := draw_ok phys ρ 0 hp
    exact ⟨out, qs, by simpa using h1, h2⟩
  · intro out qs h
    simpa using pass_ok dist c phys out qs 0 h

/-- The distance of one integer charge. -/
def zdist (a b : ℤ) : Int := (a - b) * (a - b)

theorem zdist_isDist : IsDist zdist :=
  ⟨fun a b => mul_self_nonneg _, fun a b => by unfold zdist; rw [mul_self_eq_zero, sub_eq_zero]⟩

example : ∃ out, generate zdist [[1, -1], [1, -1], [1, -1]] 1 1 (fun _ => 0) = .ok out ∧
    HasTotal [[1, -1], [1, -1], [1, -1]] out 1 := by
  refine ⟨[1, 0, 0], rfl, [-1, 1, 1], rfl, by norm_num⟩

/-- No state on a site: undefined behaviour. -/
example : generate zdist [[]] 1 1 (fun _ => 0) = Res.ub := rfl

/-! ### C47 -/

/-- One site of a pass when the states are a progression and the total is not yet reached: either it is reached, or the
site is moved to its extreme state in the direction that is missing. -/
theorem adjust_progression (ε : ℤ) (hε : ε = 1 ∨ ε = -1) {s : ℤ} (hs : 0 < s) {a : List ℤ} (ha : Progression s a) (c s0 q q' : ℤ)
    (hq : q ∈ a) (hq' : q' ∈ a) (hdvd : s ∣ c - (s0 + q)) (hsign : 0 < ε * (c - (s0 + q)))
    (hmin : ∀ x ∈ a, zdist (s0 + q') c ≤ zdist (s0 + x) c) :
    s0 + q' = c ∨ (0 < ε * (c - (s0 + q')) ∧ ∀ x ∈ a, ε * x ≤ ε * q') := by
  obtain ⟨lo, m, ha⟩ := ha
  obtain ⟨k, hk, rfl⟩ := (ha q).1 hq
  obtain ⟨k', hk', rfl⟩ := (ha q').1 hq'
  obtain ⟨t, ht⟩ := hdvd
  -- the number of steps missing
  by_cases hreach : 0 ≤ (k : ℤ) + t ∧ (k : ℤ) + t ≤ m
  · left
    have hx : c - s0 ∈ a := (ha _).2 ⟨((k : ℤ) + t).toNat, by omega, by
      rw [Int.toNat_of_nonneg hreach.1]; linarith [mul_comm t s, add_mul (k : ℤ) t s]⟩
    have := hmin _ hx
    have h0 : zdist (s0 + (c - s0)) c = 0 := (zdist_isDist.zero _ _).2 (by ring)
    have h1 := zdist_isDist.nonneg (s0 + (lo + k' * s)) c
    exact (zdist_isDist.zero _ _).1 (by omega)
  · right
    have hst : 0 < ε * t := by
      have : ε * (c - (s0 + (lo + k * s))) = s * (ε * t) := by rw [ht]; ring
      rw [this] at hsign
      exact (mul_pos_iff_of_pos_left hs).1 hsign
    rcases hε with rfl | rfl
    · have ht' : (m : ℤ) < k + t := by omega
      have hm := hmin (lo + m * s) ((ha _).2 ⟨m, le_refl _, rfl⟩)
      have hkm : (k' : ℤ) ≤ m := by exact_mod_cast hk'
      -- c = s0 + lo + (k + t) s
      have hc : c = s0 + lo + (k + t) * s := by linarith [mul_comm t s, add_mul (k : ℤ) t s]
      have e1 : zdist (s0 + (lo + k' * s)) c = (k + t - k') * (k + t - k') * (s * s) := by rw [hc]; unfold zdist; ring
      have e2 : zdist (s0 + (lo + m * s)) c = (k + t - m) * (k + t - m) * (s * s) := by rw [hc]; unfold zdist; ring
      rw [e1, e2] at hm
      have hm' := le_of_mul_le_mul_right hm (mul_pos hs hs)
      have hkk : (k' : ℤ) = m := by nlinarith
      refine ⟨?_, ?_⟩
      · rw [hc, hkk]; nlinarith
      · intro x hx
        obtain ⟨j, hj, rfl⟩ := (ha x).1 hx
        have : (j : ℤ) ≤ k' := by rw [hkk]; exact_mod_cast hj
        nlinarith
    · have ht' : (k : ℤ) + t < 0 := by omega
      have hm := hmin (lo + (0 : ℕ) * s) ((ha _).2 ⟨0, by omega, rfl⟩)
      have hc : c = s0 + lo + (k + t) * s := by linarith [mul_comm t s, add_mul (k : ℤ) t s]
      have e1 : zdist (s0 + (lo + k' * s)) c = (k' - (k + t)) * (k' - (k + t)) * (s * s) := by rw [hc]; unfold zdist; ring
      have e2 : zdist (s0 + (lo + (0 : ℕ) * s)) c = (-(k + t)) * (-(k + t)) * (s * s) := by rw [hc]; unfold zdist; push_cast; ring
      rw [e1, e2] at hm
      have hm' := le_of_mul_le_mul_right hm (mul_pos hs hs)
      have hk0 : (0 : ℤ) ≤ k' := by omega
      have hkk : (k' : ℤ) = 0 := by nlinarith
      refine ⟨?_, ?_⟩
      · rw [hc, hkk]; nlinarith
      · intro x hx
        obtain ⟨j, hj, rfl⟩ := (ha x).1 hx
        have : (0 : ℤ) ≤ j := by omega
        rw [hkk]
        nlinarith

theorem pass_zero (dist : G → G → Int) (c : G) (phys : List (List G)) (out : List Nat) (sum : G) :
    pass dist c phys out sum 0 = .ok (out, sum, 0) := by
  cases phys <;> cases out <;> simp [pass]

theorem progression_dvd {s : ℤ} {a : List ℤ} (ha : Progression s a) {x y : ℤ} (hx : x ∈ a) (hy : y ∈ a) : s ∣ x - y := by
  obtain ⟨lo, m, ha⟩ := ha
  obtain ⟨k, _, rfl⟩ := (ha x).1 hx
  obtain ⟨k', _, rfl⟩ := (ha y).1 hy
  exact ⟨k - k', by ring⟩

theorem chosen_dvd {s : ℤ} : ∀ {phys : List (List ℤ)} {o o' qs qs'}, (∀ a ∈ phys, Progression s a) →
    chosen phys o = some qs → chosen phys o' = some qs' → s ∣ qs.sum - qs'.sum
  | [], [], [], _, _, _, h, h' => by cases h; cases h'; simp
  | [], [], _ :: _, _, _, _, _, h => by cases h
  | [], _ :: _, _, _, _, _, h, _ => by cases h
  | _ :: _, [], _, _, _, _, h, _ => by cases h
  | _ :: _, _ :: _, [], _, _, _, _, h => by cases h
  | a :: phys, o :: out, o' :: out', qs, qs', hp, h, h' => by
    obtain ⟨q, r, h1, h2, rfl⟩ := chosen_cons.1 h
    obtain ⟨q', r', h1', h2', rfl⟩ := chosen_cons.1 h'
    have i := chosen_dvd (fun b hb => hp b (by simp [hb])) h2 h2'
    have j := progression_dvd (hp a (by simp)) (List.mem_of_getElem? h1) (List.mem_of_getElem? h1')
    have : (q :: r).sum - (q' :: r').sum = (q - q') + (r.sum - r'.sum) := by simp only [List.sum_cons]; ring
    rw [this]
    exact Int.dvd_add j i

theorem chosen_extreme (ε : ℤ) : ∀ {phys : List (List ℤ)} {o qs ms}, chosen phys o = some qs →
    List.Forall₂ (fun a q => ∀ x ∈ a, ε * x ≤ ε * q) phys ms → ε * qs.sum ≤ ε * ms.sum
  | [], [], _, _, h, hm => by cases h; cases hm; simp
  | [], _ :: _, _, _, h, _ => by cases h
  | _ :: _, [], _, _, h, _ => by cases h
  | a :: phys, o :: out, qs, _, h, hm => by
    obtain ⟨q, r, h1, h2, rfl⟩ := chosen_cons.1 h
    cases hm with
    | cons hx hr =>
      have := chosen_extreme ε h2 hr
      have := hx q (List.mem_of_getElem? h1)
      simp only [List.sum_cons, mul_add]
      omega

/-- One pass when every site has a progression with the same step. -/
theorem pass_progression (ε : ℤ) (hε : ε = 1 ∨ ε = -1) {s : ℤ} (hs : 0 < s) (c : ℤ) :
    ∀ (phys : List (List ℤ)) (out : List Nat) (qs : List ℤ) (base : ℤ), (∀ a ∈ phys, Progression s a) →
    chosen phys out = some qs → s ∣ c - (base + qs.sum) → 0 < ε * (c - (base + qs.sum)) →
    ∃ out' qs', pass zdist c phys out (base + qs.sum) (zdist (base + qs.sum) c)
        = .ok (out', base + qs'.sum, zdist (base + qs'.sum) c) ∧ chosen phys out' = some qs' ∧
      (base + qs'.sum = c ∨ (0 < ε * (c - (base + qs'.sum)) ∧
        List.Forall₂ (fun a q => ∀ x ∈ a, ε * x ≤ ε * q) phys qs'))
  | [], [], qs, base, _, h, _, hp => by
    cases h
    exact ⟨[], [], by simp [pass], rfl, .inr ⟨hp, .nil⟩⟩
  | [], _ :: _, _, _, _, h, _, _ => by cases h
  | _ :: _, [], _, _, _, h, _, _ => by cases h
  | a :: phys, o :: out, qs, base, ha, h, hdvd, hpos => by
    have h0 : ¬ zdist (base + qs.sum) c = 0 := by
      rw [zdist_isDist.zero]
      intro e; rw [e] at hpos; simp at hpos
    obtain ⟨q, r, h1, h2, rfl⟩ := chosen_cons.1 h
    obtain ⟨o', q', a1, a2, a3, a4⟩ := adjust_ok zdist c a o q (base + (q :: r).sum) h1
    have e : ∀ x, base + (q :: r).sum + -q + x = base + r.sum + x := by intro x; rw [List.sum_cons]; ring
    simp only [e] at a1 a3 a4
    have e1 : base + (q :: r).sum = base + r.sum + q := by rw [List.sum_cons]; ring
    have e2 : base + r.sum + q' = base + q' + r.sum := by ring
    have hstep := adjust_progression ε hε hs (ha a (by simp)) c (base + r.sum) q q' (List.mem_of_getElem? h1)
      (List.mem_of_getElem? a2) (by rw [← e1]; exact hdvd) (by rw [← e1]; exact hpos) a4
    rcases hstep with hc | ⟨hpos', hext⟩
    · -- the total is reached
      have hz : zdist (base + r.sum + q') c = 0 := (zdist_isDist.zero _ _).2 hc
      have e3 : base + (q' :: r).sum = base + r.sum + q' := by rw [List.sum_cons]; ring
      refine ⟨o' :: out, q' :: r, ?_, chosen_cons.2 ⟨_, _, a2, h2, rfl⟩, .inl (by rw [e3]; exact hc)⟩
      rw [e3]
      rw [hz] at a1 ⊢
      simp only [pass, if_neg h0, bind, Except.bind, a1, pass_zero]
    · have hd' : s ∣ c - (base + q' + r.sum) := by
        have j := progression_dvd (ha a (by simp)) (List.mem_of_getElem? h1) (List.mem_of_getElem? a2)
        have : c - (base + q' + r.sum) = (c - (base + (q :: r).sum)) + (q - q') := by rw [List.sum_cons]; ring
        rw [this]; exact Int.dvd_add hdvd j
      rw [e2] at a1 hpos'
      obtain ⟨out', qs', p1, p2, p3⟩ := pass_progression ε hε hs c phys out r (base + q') (fun b hb => ha b (by simp [hb]))
        h2 hd' hpos'
      have e4 : base + q' + qs'.sum = base + (q' :: qs').sum := by rw [List.sum_cons]; ring
      refine ⟨o' :: out', q' :: qs', ?_, chosen_cons.2 ⟨_, _, a2, p2, rfl⟩, ?_⟩
      · simp only [pass, if_neg h0, bind, Except.bind, a1, p1, e4]
      · rw [← e4]
        exact p3.imp id (fun x => ⟨x.1, .cons hext x.2⟩)

theorem progression_ne_nil {s : ℤ} {a : List ℤ} (h : Progression s a) : a ≠ [] := by
  obtain ⟨lo, m, h⟩ := h
  intro e
  have := (h lo).2 ⟨0, by omega, by simp⟩
  rw [e] at this
  cases this

/-- **C47**, for integer charges (spin projection, number of particles): when the charges of every site form a progression
with one common step, in any order and possibly different from site to site, a total that some string has is always
reached, with any number of passes from one up and whatever the random numbers.  Missing: other sets of charges, where it
can fail (`C47_fails`). -/
theorem C47_progression_partial {s : ℤ} (hs : 0 < s) (phys : List (List ℤ)) (ha : ∀ a ∈ phys, Progression s a) (c : ℤ)
    (hw : ∃ w, HasTotal phys w c) (nPass : Nat) (hn : 1 ≤ nPass) (ρ : Nat → Nat) :
    ∃ out, generate zdist phys c nPass ρ = .ok out ∧ HasTotal phys out c := by
  obtain ⟨n, rfl⟩ : ∃ n, nPass = n + 1 := ⟨nPass - 1, by omega⟩
  obtain ⟨w, ws, hw1, hw2⟩ := hw
  obtain ⟨out, qs, h1, h2⟩ := draw_ok phys ρ 0 (fun a h => progression_ne_nil (ha a h))
  simp only [zero_add] at h1
  have hn' : ¬ n + 1 < 1 := by omega
  simp only [generate, if_neg hn', bind, Except.bind, h1, passes]
  have hdvd : s ∣ c - (0 + qs.sum) := by rw [zero_add, ← hw2]; exact chosen_dvd ha hw1 h2
  have key : ∀ ε : ℤ, ε = 1 ∨ ε = -1 → 0 < ε * (c - (0 + qs.sum)) →
      ∃ out' qs', pass zdist c phys out qs.sum (zdist qs.sum c) = .ok (out', qs'.sum, 0) ∧
        chosen phys out' = some qs' ∧ qs'.sum = c := by
    intro ε hε hpos
    obtain ⟨out', qs', p1, p2, p3⟩ := pass_progression ε hε hs c phys out qs 0 ha h2 hdvd hpos
    simp only [zero_add] at p1 p3
    have hc : qs'.sum = c := by
      rcases p3 with h | ⟨h3, h4⟩
      · exact h
      · have := chosen_extreme ε hw1 h4
        rw [hw2] at this
        rw [mul_sub] at h3
        omega
    rw [(zdist_isDist.zero _ _).2 hc] at p1
    exact ⟨out', qs', p1, p2, hc⟩
  rcases Int.lt_trichotomy qs.sum c with h | h | h
  · obtain ⟨out', qs', p1, p2, p3⟩ := key 1 (.inl rfl) (by simp; exact h)
    rw [p1]
    exact ⟨out', rfl, qs', p2, p3⟩
  · rw [(zdist_isDist.zero _ _).2 h, pass_zero]
    exact ⟨out, rfl, qs, h2, h⟩
  · obtain ⟨out', qs', p1, p2, p3⟩ := key (-1) (.inr rfl) (by simp; exact h)
    rw [p1]
    exact ⟨out', rfl, qs', p2, p3⟩

/-- Spin one half next to spin one (charges in units of one half). -/
example : ∀ a ∈ ([[1, -1], [2, 0, -2], [1, -1]] : List (List ℤ)), Progression 2 a := by
  intro a ha
  simp only [List.mem_cons, List.not_mem_nil, or_false] at ha
  rcases ha with rfl | rfl | rfl
  · refine ⟨-1, 1, fun x => ⟨fun h => ?_, fun ⟨k, hk, e⟩ => ?_⟩⟩
    · simp at h; rcases h with rfl | rfl
      · exact ⟨1, by omega, by norm_num⟩
      · exact ⟨0, by omega, by norm_num⟩
    · simp; omega
  · refine ⟨-2, 2, fun x => ⟨fun h => ?_, fun ⟨k, hk, e⟩ => ?_⟩⟩
    · simp at h; rcases h with rfl | rfl | rfl
      · exact ⟨2, by omega, by norm_num⟩
      · exact ⟨1, by omega, by norm_num⟩
      · exact ⟨0, by omega, by norm_num⟩
    · simp; omega
  · refine ⟨-1, 1, fun x => ⟨fun h => ?_, fun ⟨k, hk, e⟩ => ?_⟩⟩
    · simp at h; rcases h with rfl | rfl
      · exact ⟨1, by omega, by norm_num⟩
      · exact ⟨0, by omega, by norm_num⟩
    · simp; omega
example : HasTotal ([[1, -1], [2, 0, -2], [1, -1]] : List (List ℤ)) [0, 2, 1] (-2) := ⟨[1, -2, -1], rfl, by norm_num⟩

/-- A pass after which the site `i` was allowed every charge reaches the total. -/
theorem pass_complete (dist : G → G → Int) (hd : IsDist dist) (c : G) : ∀ (phys : List (List G)) (out : List Nat) (qs : List G) (base : G),
    chosen phys out = some qs → (∃ a ∈ phys, ∀ x, x ∈ a) →
    ∃ out' qs', pass dist c phys out (base + qs.sum) (dist (base + qs.sum) c) = .ok (out', base + qs'.sum, 0) ∧
      chosen phys out' = some qs' ∧ base + qs'.sum = c
  | [], _, _, _, _, h => by simp at h
  | _ :: _, [], _, _, h, _ => by cases h
  | a :: phys, o :: out, qs, base, h, hc => by
    by_cases h0 : dist (base + qs.sum) c = 0
    · refine ⟨o :: out, qs, ?_, h, (hd.zero _ _).1 h0⟩
      rw [h0, pass_zero]
    · obtain ⟨q, r, h1, h2, rfl⟩ := chosen_cons.1 h
      obtain ⟨o', q', a1, a2, _, a4⟩ := adjust_ok dist c a o q (base + (q :: r).sum) h1
      have e : ∀ x, base + (q :: r).sum + -q + x = base + x + r.sum := by intro x; rw [List.sum_cons]; abel
      simp only [e] at a1 a4
      obtain ⟨b, hb, hall⟩ := hc
      rcases List.mem_cons.1 hb with rfl | hb
      · have hz : dist (base + q' + r.sum) c = 0 := by
          have := a4 (c - base - r.sum) (hall _)
          have e2 : base + (c - base - r.sum) + r.sum = c := by abel
          rw [e2, (hd.zero c c).2 rfl] at this
          have := hd.nonneg (base + q' + r.sum) c
          omega
        have e3 : base + (q' :: r).sum = base + q' + r.sum := by rw [List.sum_cons]; abel
        refine ⟨o' :: out, q' :: r, ?_, chosen_cons.2 ⟨_, _, a2, h2, rfl⟩, by rw [e3]; exact (hd.zero _ _).1 hz⟩
        rw [hz] at a1
        simp only [pass, if_neg h0, bind, Except.bind, a1, pass_zero, e3]
      · obtain ⟨out', qs', p1, p2, p3⟩ := pass_complete dist hd c phys out r (base + q') h2 ⟨b, hb, hall⟩
        have e4 : base + q' + qs'.sum = base + (q' :: qs').sum := by rw [List.sum_cons]; abel
        refine ⟨o' :: out', q' :: qs', ?_, chosen_cons.2 ⟨_, _, a2, p2, rfl⟩, by rw [← e4]; exact p3⟩
        simp only [pass, if_neg h0, bind, Except.bind, a1, p1, e4]

/-- **C47**, for any charges: when the states of some site have every charge of the group (a parity, for instance), every
total is reached. -/
theorem C47_complete_partial (dist : G → G → Int) (hd : IsDist dist) (phys : List (List G)) (hp : ∀ a ∈ phys, a ≠ [])
    (hc : ∃ a ∈ phys, ∀ x, x ∈ a) (c : G) (nPass : Nat) (hn : 1 ≤ nPass) (ρ : Nat → Nat) :
    ∃ out, generate dist phys c nPass ρ = .ok out ∧ HasTotal phys out c := by
  obtain ⟨n, rfl⟩ : ∃ n, nPass = n + 1 := ⟨nPass - 1, by omega⟩
  obtain ⟨out, qs, h1, h2⟩ := draw_ok phys ρ 0 hp
  simp only [zero_add] at h1
  have hn' : ¬ n + 1 < 1 := by omega
  obtain ⟨out', qs', p1, p2, p3⟩ := pass_complete dist hd c phys out qs 0 h2 hc
  simp only [zero_add] at p1 p3
  refine ⟨out', ?_, qs', p2, p3⟩
  simp only [generate, if_neg hn', bind, Except.bind, h1, passes, p1, if_true]

/-- **C47** is false in general: with the charges 0, 3 and -2 on two sites, the total 1 is that of `3 - 2`, but the
generator started at `0 + 0` finds no single change that comes closer, and throws. -/
theorem C47_fails : HasTotal ([[0, 3, -2], [0, 3, -2]] : List (List ℤ)) [1, 2] 1 ∧
    generate zdist [[0, 3, -2], [0, 3, -2]] 1 1 (fun _ => 0) = Res.throw .invalidArgument :=
  ⟨⟨[3, -2], rfl, by norm_num⟩, rfl⟩

/-- More passes do not help. -/
theorem C47_passes_fail (n : Nat) :
    generate zdist [[0, 3, -2], [0, 3, -2]] 1 n (fun _ => 0) = Res.throw .invalidArgument := by
  have key : ∀ n, passes zdist 1 [[0, 3, -2], [0, 3, -2]] n [0, 0] 0 1 = Res.throw .invalidArgument := by
    intro n
    induction n with
    | zero => rfl
    | succ n ih =>
      have e : pass zdist 1 [[0, 3, -2], [0, 3, -2]] [0, 0] 0 1 = .ok ([0, 0], 0, 1) := rfl
      simp only [passes, bind, Except.bind, e]
      rw [if_neg (by norm_num)]
      exact ih
  cases n with
  | zero => rfl
  | succ n => exact key (n + 1)

end RM
end QuantiT
