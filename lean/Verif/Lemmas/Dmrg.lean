import Verif.Model.Dmrg
/-
The cached environments of DMRG are always the fresh ones, and a sweep follows the tour.
-/
namespace QuantiT
namespace DM
open Spec
variable {S E En : Type}

theorem zipIdx_set (l : List S) (o : Nat) (a : S) : (l.set o a).zipIdx = l.zipIdx.set o (a, o) := by
  apply List.ext_getElem?
  intro i
  rw [List.getElem?_zipIdx, List.getElem?_set, List.getElem?_set, List.getElem?_zipIdx]
  by_cases h : o = i
  · subst h
    simp only [if_true, List.length_zipIdx]
    by_cases h2 : o < l.length <;> simp [h2]
  · simp [h]

theorem left_set (d : Dmrg S E En) (sites : List S) (o i : Nat) (a : S) (h : i ≤ o) :
    d.left (sites.set o a) i = d.left sites i := by
  unfold Dmrg.left
  rw [zipIdx_set, List.take_set_of_le h]

theorem right_set (d : Dmrg S E En) (sites : List S) (o i : Nat) (a : S) (h : o < i) :
    d.right (sites.set o a) i = d.right sites i := by
  unfold Dmrg.right
  rw [zipIdx_set, List.drop_set_of_lt h]

theorem left_zero (d : Dmrg S E En) (sites : List S) : d.left sites 0 = d.edgeL := by simp [Dmrg.left]

theorem left_succ (d : Dmrg S E En) (sites : List S) (i : Nat) (s : S) (h : sites[i]? = some s) :
    d.left sites (i + 1) = d.lenv i s (d.left sites i) := by
  unfold Dmrg.left
  rw [List.take_add_one, List.getElem?_zipIdx, h]
  simp

theorem right_end (d : Dmrg S E En) (sites : List S) : d.right sites sites.length = d.edgeR := by
  unfold Dmrg.right
  rw [List.drop_eq_nil_of_le (by simp)]; rfl

theorem right_succ (d : Dmrg S E En) (sites : List S) (i : Nat) (s : S) (h : sites[i]? = some s) :
    d.right sites i = d.renv i s (d.right sites (i + 1)) := by
  obtain ⟨hi, rfl⟩ := List.getElem?_eq_some_iff.1 h
  unfold Dmrg.right
  rw [List.drop_eq_getElem_cons (by simpa using hi)]
  simp

/-- The environments needed by the next update, and by every later one, are those of the current tensors. -/
structure Fresh (d : Dmrg S E En) (len : Nat) (st : St S E) : Prop where
  slen : st.sites.length = len
  elen : st.env.length = len + 2
  inside : st.oc + 2 ≤ len
  small : len < 2 ^ 63
  left : ∀ i, i ≤ st.oc → st.env[i]? = some (d.left st.sites i)
  right : ∀ i, st.oc + 2 ≤ i → i ≤ len → st.env[i + 1]? = some (d.right st.sites i)

/-- The concrete computation follows the ideal one: same fault, or results related by `Q`. -/
def Sim {A B : Type} (Q : A → B → Prop) (x : Res A) (y : Res B) : Prop :=
  match y with
  | .error f => x = .error f
  | .ok b => ∃ a, x = .ok a ∧ Q a b

theorem Sim.bind {A B A' B' : Type} {Q : A → B → Prop} {Q' : A' → B' → Prop} {x : Res A} {y : Res B}
    {f : A → Res A'} {g : B → Res B'} (h : Sim Q x y) (hf : ∀ a b, Q a b → Sim Q' (f a) (g b)) :
    Sim Q' (x >>= f) (y >>= g) := by
  cases y with
  | error e => simp only [Sim] at h; rw [h]; simp only [Sim, Bind.bind, Except.bind]
  | ok b =>
    obtain ⟨a, rfl, hq⟩ := h
    exact hf a b hq

theorem toU64_eq {x : Int} (h0 : 0 ≤ x) (h1 : x < 2 ^ 64) : LA.toU64 x = x.toNat := by
  unfold LA.toU64
  rw [Int.emod_eq_of_lt h0 h1]

theorem update_sim (d : Dmrg S E En) (len : Nat) (st : St S E) (h : Fresh d len st) (step : Int)
    (hs : step = 1 ∧ st.oc + 3 ≤ len ∨ step = -1 ∧ 0 < st.oc ∨ step = 0) :
    Sim (fun a b => a.1 = b.1 ∧ a.2.sites = b.2 ∧ (a.2.oc : Int) = st.oc + step ∧ Fresh d len a.2)
      (update d (len - 1) st step) (d.fresh st.oc (decide (step = 1)) st.sites) := by
  have hin := h.inside
  have hl := h.slen
  have hel := h.elen
  have hsm := h.small
  have hA : st.sites[st.oc]? = some (st.sites[st.oc]'(by omega)) := List.getElem?_eq_getElem _
  have hB : st.sites[st.oc + 1]? = some (st.sites[st.oc + 1]'(by omega)) := List.getElem?_eq_getElem _
  generalize st.sites[st.oc]'(by omega) = a at hA
  generalize st.sites[st.oc + 1]'(by omega) = b at hB
  have hle : rd st.env ((st.oc : Int) - 1) = .ok (d.left st.sites st.oc) := by
    unfold rd
    rw [if_pos (by omega)]
    rw [show ((st.oc : Int) - 1 + 1).toNat = st.oc by omega, h.left _ (le_refl _)]; rfl
  have hre : rd st.env ((st.oc : Int) + 2) = .ok (d.right st.sites (st.oc + 2)) := by
    unfold rd
    rw [if_pos (by omega)]
    rw [show ((st.oc : Int) + 2 + 1).toNat = st.oc + 2 + 1 by omega, h.right _ (le_refl _) hin]; rfl
  unfold update Dmrg.fresh
  simp only [hA, hB, BT.orUb, bind, Except.bind, hle, hre]
  rw [if_neg (by omega)]
  cases hu : d.upd (decide (step = 1)) st.oc (d.left st.sites st.oc) (d.right st.sites (st.oc + 2)) a b with
  | error f => simp [Sim, Except.map]
  | ok r =>
    simp only [Sim, Except.map]
    generalize hsites : (st.sites.set st.oc r.2.1).set (st.oc + 1) r.2.2 = sites'
    have hnl : sites'.length = len := by rw [← hsites]; simpa using hl
    have hA' : sites'[st.oc]? = some r.2.1 := by
      rw [← hsites, List.getElem?_set_ne (by omega), List.getElem?_set_self (by omega)]
    have hB' : sites'[st.oc + 1]? = some r.2.2 := by
      rw [← hsites, List.getElem?_set_self (by simp; omega)]
    have hleft : ∀ i, i ≤ st.oc → d.left sites' i = d.left st.sites i := by
      intro i hi
      rw [← hsites, left_set _ _ _ _ _ (by omega), left_set _ _ _ _ _ hi]
    have hright : ∀ i, st.oc + 2 ≤ i → d.right sites' i = d.right st.sites i := by
      intro i hi
      rw [← hsites, right_set _ _ _ _ _ (by omega), right_set _ _ _ _ _ (by omega)]
    rcases hs with ⟨rfl, h3⟩ | ⟨rfl, h3⟩ | rfl
    · have hw : wr st.env (st.oc : Int) (d.lenv st.oc r.2.1 (d.left st.sites st.oc))
          = .ok (st.env.set (st.oc + 1) (d.lenv st.oc r.2.1 (d.left st.sites st.oc))) := by
        unfold wr
        rw [if_pos (by omega), show ((st.oc : Int) + 1).toNat = st.oc + 1 by omega]
      simp only [decide_true, if_true, hw]
      refine ⟨_, rfl, rfl, rfl, ?_, ?_⟩
      · rw [toU64_eq (by omega) (by omega)]; dsimp only; omega
      · have ho : LA.toU64 ((st.oc : Int) + 1) = st.oc + 1 := by rw [toU64_eq (by omega) (by omega)]; omega
        refine ⟨hnl, by simpa using hel, by simp only [ho]; omega, hsm, ?_, ?_⟩
        · intro i hi
          simp only [ho] at hi ⊢
          by_cases h1 : i = st.oc + 1
          · subst h1
            rw [List.getElem?_set_self (by omega), left_succ d sites' st.oc _ hA', hleft _ (le_refl _)]
          · rw [List.getElem?_set_ne (by omega), h.left i (by omega), hleft i (by omega)]
        · intro i hi hi2
          simp only [ho] at hi ⊢
          rw [List.getElem?_set_ne (by omega), h.right i (by omega) hi2, hright i (by omega)]
    · have hw : wr st.env ((st.oc : Int) + 1) (d.renv (st.oc + 1) r.2.2 (d.right st.sites (st.oc + 2)))
          = .ok (st.env.set (st.oc + 2) (d.renv (st.oc + 1) r.2.2 (d.right st.sites (st.oc + 2)))) := by
        unfold wr
        rw [if_pos (by omega), show ((st.oc : Int) + 1 + 1).toNat = st.oc + 2 by omega]
      simp only [Int.reduceNeg, reduceCtorEq, decide_false, Bool.false_eq_true, if_false, hw]
      refine ⟨_, rfl, rfl, rfl, ?_, ?_⟩
      · rw [toU64_eq (by omega) (by omega)]; dsimp only; omega
      · have ho : LA.toU64 ((st.oc : Int) + -1) = st.oc - 1 := by rw [toU64_eq (by omega) (by omega)]; omega
        refine ⟨hnl, by simpa using hel, by simp only [ho]; omega, hsm, ?_, ?_⟩
        · intro i hi
          simp only [ho] at hi ⊢
          rw [List.getElem?_set_ne (by omega), h.left i (by omega), hleft i (by omega)]
        · intro i hi hi2
          simp only [ho] at hi ⊢
          by_cases h1 : i = st.oc + 1
          · subst h1
            rw [List.getElem?_set_self (by omega), right_succ d sites' (st.oc + 1) _ hB', hright _ (le_refl _)]
          · rw [List.getElem?_set_ne (by omega), h.right i (by omega) hi2, hright i (by omega)]
    · have hw : wr st.env ((st.oc : Int) + 1) (d.renv (st.oc + 1) r.2.2 (d.right st.sites (st.oc + 2)))
          = .ok (st.env.set (st.oc + 2) (d.renv (st.oc + 1) r.2.2 (d.right st.sites (st.oc + 2)))) := by
        unfold wr
        rw [if_pos (by omega), show ((st.oc : Int) + 1 + 1).toNat = st.oc + 2 by omega]
      simp only [zero_ne_one, decide_false, Bool.false_eq_true, if_false, hw]
      refine ⟨_, rfl, rfl, rfl, ?_, ?_⟩
      · rw [toU64_eq (by omega) (by omega)]; dsimp only; omega
      · have ho : LA.toU64 ((st.oc : Int) + 0) = st.oc := by rw [toU64_eq (by omega) (by omega)]; omega
        refine ⟨hnl, by simpa using hel, by simp only [ho]; omega, hsm, ?_, ?_⟩
        · intro i hi
          simp only [ho] at hi ⊢
          rw [List.getElem?_set_ne (by omega), h.left i (by omega), hleft i (by omega)]
        · intro i hi hi2
          simp only [ho] at hi ⊢
          rw [List.getElem?_set_ne (by omega), h.right i (by omega) hi2, hright i (by omega)]

/-! ### Phases of a sweep -/

/-- Result of part of a sweep against the ideal run. -/
def PartQ (d : Dmrg S E En) (len oc : Nat) (step : Int) (a : Option En × Int × St S E) (b : Option En × List S) : Prop :=
  a.1 = b.1 ∧ a.2.2.sites = b.2 ∧ a.2.2.oc = oc ∧ a.2.1 = step ∧ Fresh d len a.2.2

theorem sweepLoop_add (d : Dmrg S E En) (n2 re : Nat) : ∀ (n m : Nat) (e : Option En) (step : Int) (st : St S E),
    sweepLoop d n2 re (n + m) e step st = (sweepLoop d n2 re n e step st >>= fun r => sweepLoop d n2 re m r.1 r.2.1 r.2.2)
  | 0, m, e, step, st => by simp only [Nat.zero_add, sweepLoop, bind, Except.bind]
  | n + 1, m, e, step, st => by
    rw [show n + 1 + m = (n + m) + 1 by omega]
    simp only [sweepLoop]
    cases update d n2 st step with
    | error f => rfl
    | ok r => simp only [bind, Except.bind]; exact sweepLoop_add d n2 re n m _ _ _

theorem run_append (d : Dmrg S E En) : ∀ (p q : List (Nat × Bool)) (x : Option En × List S),
    d.run (p ++ q) x = (d.run p x >>= fun y => d.run q y)
  | [], q, x => rfl
  | (o, f) :: p, q, x => by
    simp only [List.cons_append, Dmrg.run]
    cases d.fresh o f x.2 with
    | error e => rfl
    | ok r => exact run_append d p q _

theorem back_phase (d : Dmrg S E En) (len : Nat) : ∀ (n : Nat) (st : St S E) (e : Option En), Fresh d len st →
    n ≤ st.oc → 3 ≤ len →
    Sim (PartQ d len (st.oc - n) (if 0 < n ∧ n = st.oc then 1 else -1))
      (sweepLoop d (len - 1) (len - 2) n e (-1) st)
      (d.run ((List.range n).map fun j => (st.oc - j, false)) (e, st.sites)) := by
  intro n
  induction n with
  | zero => intro st e h _ _; exact ⟨_, rfl, rfl, rfl, rfl, rfl, h⟩
  | succ n ih =>
    intro st e h hn hlen
    have hin := h.inside
    have hu := update_sim d len st h (-1) (Or.inr (Or.inl ⟨rfl, by omega⟩))
    rw [List.range_succ_eq_map, List.map_cons, List.map_map]
    simp only [sweepLoop, Dmrg.run, Nat.sub_zero]
    rw [show (decide ((-1 : Int) = 1)) = false from rfl] at hu
    cases hf : d.fresh st.oc false st.sites with
    | error f => rw [hf] at hu; simp only [Sim] at hu ⊢; rw [hu]; rfl
    | ok b =>
      rw [hf] at hu
      obtain ⟨a, ha, e1, e2, e3, e4⟩ := hu
      rw [ha]
      simp only [bind, Except.bind]
      have hoc : a.2.oc = st.oc - 1 := by omega
      have hne : ¬ a.2.oc = len - 2 := by omega
      by_cases h0 : a.2.oc = 0
      · have hn0 : n = 0 := by omega
        subst hn0
        rw [if_pos (Or.inl h0)]
        refine ⟨_, rfl, ?_, ?_, ?_, ?_, e4⟩
        · simp [e1]
        · simp [e2]
        · simp only; omega
        · simp only; rw [if_pos (by omega)]; rfl
      · have hc : ¬ (a.2.oc = 0 ∨ a.2.oc = len - 2) := by omega
        rw [if_neg hc]
        have := ih a.2 (some a.1) e4 (by omega) hlen
        rw [show (-1 : Int) * (1 - 2 * 0) = -1 from rfl]
        rw [e1, e2] at this
        have hlist : ((List.range n).map fun j => (a.2.oc - j, false))
            = List.map ((fun j => (st.oc - j, false)) ∘ Nat.succ) (List.range n) := by
          apply List.map_congr_left
          intro j _
          simp only [Function.comp, hoc, Nat.succ_eq_add_one]
          congr 1; omega
        rw [hlist] at this
        rw [e1]
        have e5 : a.2.oc - n = st.oc - (n + 1) := by omega
        have e6 : (if 0 < n ∧ n = a.2.oc then (1 : Int) else -1) = if 0 < n + 1 ∧ n + 1 = st.oc then 1 else -1 := by
          by_cases hc : n + 1 = st.oc
          · rw [if_pos (by omega), if_pos (by omega)]
          · rw [if_neg (by omega), if_neg (by omega)]
        rw [e5, e6] at this
        exact this

theorem fwd_phase (d : Dmrg S E En) (len : Nat) : ∀ (n : Nat) (st : St S E) (e : Option En), Fresh d len st →
    st.oc + n + 2 ≤ len → 3 ≤ len →
    Sim (PartQ d len (st.oc + n) (if 0 < n ∧ st.oc + n + 2 = len then -1 else 1))
      (sweepLoop d (len - 1) (len - 2) n e 1 st)
      (d.run ((List.range n).map fun j => (st.oc + j, true)) (e, st.sites)) := by
  intro n
  induction n with
  | zero => intro st e h _ _; exact ⟨_, rfl, rfl, rfl, rfl, rfl, h⟩
  | succ n ih =>
    intro st e h hn hlen
    have hu := update_sim d len st h 1 (Or.inl ⟨rfl, by omega⟩)
    rw [List.range_succ_eq_map, List.map_cons, List.map_map]
    simp only [sweepLoop, Dmrg.run, Nat.add_zero]
    rw [show (decide ((1 : Int) = 1)) = true from rfl] at hu
    cases hf : d.fresh st.oc true st.sites with
    | error f => rw [hf] at hu; simp only [Sim] at hu ⊢; rw [hu]; rfl
    | ok b =>
      rw [hf] at hu
      obtain ⟨a, ha, e1, e2, e3, e4⟩ := hu
      rw [ha]
      simp only [bind, Except.bind]
      have hoc : a.2.oc = st.oc + 1 := by omega
      have hne : ¬ a.2.oc = 0 := by omega
      by_cases h0 : a.2.oc = len - 2
      · have hn0 : n = 0 := by omega
        subst hn0
        rw [if_pos (Or.inr h0)]
        refine ⟨_, rfl, ?_, ?_, ?_, ?_, e4⟩
        · simp [e1]
        · simp [e2]
        · simp only; omega
        · simp only; rw [if_pos (by omega)]; rfl
      · have hc : ¬ (a.2.oc = 0 ∨ a.2.oc = len - 2) := by omega
        rw [if_neg hc]
        have := ih a.2 (some a.1) e4 (by omega) hlen
        rw [show (1 : Int) * (1 - 2 * 0) = 1 from rfl]
        rw [e1, e2] at this
        have hlist : ((List.range n).map fun j => (a.2.oc + j, true))
            = List.map ((fun j => (st.oc + j, true)) ∘ Nat.succ) (List.range n) := by
          apply List.map_congr_left
          intro j _
          simp only [Function.comp, hoc, Nat.succ_eq_add_one]
          congr 1; omega
        rw [hlist] at this
        rw [e1]
        have e5 : a.2.oc + n = st.oc + (n + 1) := by omega
        have e6 : (if 0 < n ∧ a.2.oc + n + 2 = len then (-1 : Int) else 1)
            = if 0 < n + 1 ∧ st.oc + (n + 1) + 2 = len then -1 else 1 := by
          by_cases hc : st.oc + (n + 1) + 2 = len
          · rw [if_pos (by omega), if_pos (by omega)]
          · rw [if_neg (by omega), if_neg (by omega)]
        rw [e6, e5] at this
        exact this

/-- The direction of a sweep that starts at pair `q`. -/
def dir (len q : Nat) : Int := if len = 2 then 0 else if q = 0 then 1 else -1

theorem sweep_sim (d : Dmrg S E En) (len : Nat) (hlen : 2 ≤ len) (st : St S E) (e : Option En) (h : Fresh d len st) :
    Sim (PartQ d len st.oc (dir len st.oc))
      (sweepLoop d (len - 1) (len - 2) (if len = 2 then 2 else 2 * (len - 2)) e (dir len st.oc) st)
      (d.run (tour len st.oc) (e, st.sites)) := by
  have hin := h.inside
  by_cases h2 : len = 2
  · subst h2
    have ho : st.oc = 0 := by omega
    rw [if_pos rfl, show dir 2 st.oc = 0 from rfl]
    have ht : tour 2 st.oc = [(0, false), (0, false)] := rfl
    rw [ht]
    have step1 : ∀ (st : St S E) (e : Option En), Fresh d 2 st →
        Sim (PartQ d 2 st.oc 0) (sweepLoop d 1 0 1 e 0 st) (d.run [(0, false)] (e, st.sites)) := by
      intro st e h
      have hin := h.inside
      have ho : st.oc = 0 := by omega
      have hu := update_sim d 2 st h 0 (Or.inr (Or.inr rfl))
      rw [ho, show (decide ((0 : Int) = 1)) = false from rfl] at hu
      simp only [sweepLoop, Dmrg.run]
      cases hf : d.fresh 0 false st.sites with
      | error f => rw [hf] at hu; simp only [Sim] at hu ⊢; rw [show (1 : Nat) = 2 - 1 from rfl, hu]; rfl
      | ok b =>
        rw [hf] at hu
        obtain ⟨a, ha, e1, e2, e3, e4⟩ := hu
        rw [show (2 - 1 : Nat) = 1 from rfl] at ha
        rw [ha]
        simp only [bind, Except.bind, Int.zero_mul]
        refine ⟨_, rfl, ?_, ?_, ?_, ?_, e4⟩
        · simp [e1]
        · simp [e2]
        · simp only; omega
        · rfl
    have := Sim.bind (Q' := PartQ d 2 st.oc 0) (f := fun r => sweepLoop d 1 0 1 r.1 r.2.1 r.2.2)
      (g := fun y => d.run [(0, false)] y) (step1 st e h) ?_
    · rw [← sweepLoop_add, ← run_append] at this
      exact this
    · rintro ⟨e', s', st'⟩ ⟨eb, sb⟩ ⟨q1, q2, q3, q4, q5⟩
      simp only at q1 q2 q3 q4 q5 ⊢
      subst q1 q2 q4
      have := step1 st' e' q5
      rw [q3] at this
      exact this
  · have hlen3 : 3 ≤ len := by omega
    rw [if_neg h2]
    have ht : tour len st.oc = (List.range st.oc).map (fun j => (st.oc - j, false)) ++ ((List.range (len - 2)).map (fun j => (j, true))
        ++ (List.range (len - 2 - st.oc)).map (fun j => (len - 2 - j, false))) := by
      unfold tour; rw [if_neg h2, List.append_assoc]
    -- from the left end: up and back down to `q`
    have tail : ∀ (q : Nat) (st : St S E) (e : Option En), Fresh d len st → st.oc = 0 → q + 2 ≤ len →
        Sim (PartQ d len q (dir len q)) (sweepLoop d (len - 1) (len - 2) (len - 2 + (len - 2 - q)) e 1 st)
          (d.run ((List.range (len - 2)).map (fun j => (j, true)) ++
            (List.range (len - 2 - q)).map (fun j => (len - 2 - j, false))) (e, st.sites)) := by
      intro q st e h h0 hq
      rw [sweepLoop_add, run_append]
      have f := fwd_phase d len (len - 2) st e h (by omega) hlen3
      rw [h0, if_pos (by omega)] at f
      simp only [Nat.zero_add] at f
      refine Sim.bind f ?_
      rintro ⟨e', s', st'⟩ ⟨eb, sb⟩ ⟨q1, q2, q3, q4, q5⟩
      simp only at q1 q2 q3 q4 q5 ⊢
      subst q1 q2 q4
      have b := back_phase d len (len - 2 - q) st' e' q5 (by omega) hlen3
      rw [q3] at b
      rw [show len - 2 - (len - 2 - q) = q by omega] at b
      have hd : (if 0 < len - 2 - q ∧ len - 2 - q = len - 2 then (1 : Int) else -1) = dir len q := by
        unfold dir
        rw [if_neg h2]
        by_cases hq0 : q = 0
        · rw [if_pos hq0, if_pos (by omega)]
        · rw [if_neg hq0, if_neg (by omega)]
      rw [hd] at b
      exact b
    rw [ht]
    by_cases h0 : st.oc = 0
    · have := tail st.oc st e h h0 (by omega)
      rw [h0] at this ⊢
      rw [show 2 * (len - 2) = len - 2 + (len - 2 - 0) by omega]
      rw [show dir len 0 = 1 by unfold dir; rw [if_neg h2, if_pos rfl]] at this ⊢
      exact this
    · rw [show 2 * (len - 2) = st.oc + (len - 2 + (len - 2 - st.oc)) by omega, sweepLoop_add, run_append]
      have b := back_phase d len st.oc st e h (le_refl _) hlen3
      rw [if_pos ⟨by omega, rfl⟩] at b
      have hd : dir len st.oc = -1 := by unfold dir; rw [if_neg h2, if_neg h0]
      rw [show dir len st.oc = -1 from hd]
      refine Sim.bind b ?_
      rintro ⟨e', s', st'⟩ ⟨eb, sb⟩ ⟨q1, q2, q3, q4, q5⟩
      simp only at q1 q2 q3 q4 q5 ⊢
      subst q1 q2 q4
      have := tail st.oc st' e' q5 (by omega) (by omega)
      rw [hd] at this
      exact this

/-! ### The initial environments -/

theorem genLeft_ok (d : Dmrg S E En) (len : Nat) (sites : List S) (hl : sites.length = len) :
    ∀ (n : Nat) (env : List E), n ≤ len → env.length = len + 2 → env[0]? = some d.edgeL →
    ∃ env', (List.range n).foldlM (genLeft d sites) env = Except.ok (ε := Fault) env' ∧ env'.length = len + 2 ∧
      (∀ i, i ≤ n → env'[i]? = some (d.left sites i)) ∧ (∀ i, n < i → env'[i]? = env[i]?) := by
  intro n
  induction n with
  | zero =>
    intro env _ he h0
    refine ⟨env, rfl, he, ?_, fun _ _ => rfl⟩
    intro i hi
    have : i = 0 := by omega
    subst this
    rw [h0, left_zero]
  | succ n ih =>
    intro env hn he h0
    obtain ⟨env1, e1, l1, a1, b1⟩ := ih env (by omega) he h0
    have hs : sites[n]? = some (sites[n]'(by omega)) := List.getElem?_eq_getElem _
    generalize sites[n]'(by omega) = s at hs
    refine ⟨env1.set (n + 1) (d.lenv n s (d.left sites n)), ?_, by simpa using l1, ?_, ?_⟩
    · rw [List.range_succ, List.foldlM_append, e1]
      simp only [bind, Except.bind, List.foldlM_cons, List.foldlM_nil]
      have hr : rd env1 ((n : Int) - 1) = .ok (d.left sites n) := by
        unfold rd
        rw [if_pos (by omega), show ((n : Int) - 1 + 1).toNat = n by omega, a1 n (le_refl _)]; rfl
      have hw : wr env1 (n : Int) (d.lenv n s (d.left sites n)) = .ok (env1.set (n + 1) (d.lenv n s (d.left sites n))) := by
        unfold wr
        rw [if_pos (by omega), show ((n : Int) + 1).toNat = n + 1 by omega]
      unfold genLeft
      simp only [hs, BT.orUb, bind, Except.bind, hr, hw, pure, Except.pure]
    · intro i hi
      by_cases h1 : i = n + 1
      · subst h1
        rw [List.getElem?_set_self (by omega), left_succ d sites n s hs]
      · rw [List.getElem?_set_ne (by omega), a1 i (by omega)]
    · intro i hi
      rw [List.getElem?_set_ne (by omega), b1 i (by omega)]

theorem genRight_ok (d : Dmrg S E En) (len : Nat) (sites : List S) (hl : sites.length = len) (h1 : 1 ≤ len) :
    ∀ (n : Nat) (env : List E), n + 1 ≤ len → env.length = len + 2 → env[len + 1]? = some d.edgeR →
    ∃ env', ((List.range n).map fun j => len - 1 - j).foldlM (genRight d sites) env = Except.ok (ε := Fault) env' ∧
      env'.length = len + 2 ∧ (∀ i, len - n ≤ i → i ≤ len → env'[i + 1]? = some (d.right sites i)) ∧
      (∀ i, i + n ≤ len → env'[i]? = env[i]?) := by
  intro n
  induction n with
  | zero =>
    intro env _ he h0
    refine ⟨env, rfl, he, ?_, fun _ _ => rfl⟩
    intro i hi hi2
    have : i = len := by omega
    subst this
    rw [h0]; rw [← hl, right_end]
  | succ n ih =>
    intro env hn he h0
    obtain ⟨env1, e1, l1, a1, b1⟩ := ih env (by omega) he h0
    have hs : sites[len - 1 - n]? = some (sites[len - 1 - n]'(by omega)) := List.getElem?_eq_getElem _
    generalize sites[len - 1 - n]'(by omega) = s at hs
    refine ⟨env1.set (len - n) (d.renv (len - 1 - n) s (d.right sites (len - n))), ?_, by simpa using l1, ?_, ?_⟩
    · rw [List.range_succ, List.map_append, List.foldlM_append, e1]
      simp only [bind, Except.bind, List.map_cons, List.map_nil, List.foldlM_cons, List.foldlM_nil]
      have hr : rd env1 (((len - 1 - n : Nat) : Int) + 1) = .ok (d.right sites (len - n)) := by
        unfold rd
        rw [if_pos (by omega), show (((len - 1 - n : Nat) : Int) + 1 + 1).toNat = len - n + 1 by omega,
          a1 (len - n) (by omega) (by omega)]; rfl
      have hw : wr env1 ((len - 1 - n : Nat) : Int) (d.renv (len - 1 - n) s (d.right sites (len - n)))
          = .ok (env1.set (len - n) (d.renv (len - 1 - n) s (d.right sites (len - n)))) := by
        unfold wr
        rw [if_pos (by omega), show (((len - 1 - n : Nat) : Int) + 1).toNat = len - n by omega]
      unfold genRight
      simp only [hs, BT.orUb, bind, Except.bind, hr, hw, pure, Except.pure]
    · intro i hi hi2
      by_cases h1 : i = len - 1 - n
      · subst h1
        rw [show len - 1 - n + 1 = len - n by omega, List.getElem?_set_self (by omega),
          right_succ d sites (len - 1 - n) s hs, show len - 1 - n + 1 = len - n by omega]
      · rw [List.getElem?_set_ne (by omega), a1 i (by omega) hi2]
    · intro i hi
      rw [List.getElem?_set_ne (by omega), b1 i (by omega)]

theorem generateEnv_ok (d : Dmrg S E En) (dflt : E) (sites : List S) (oc : Nat) (h2 : 2 ≤ sites.length)
    (ho : oc < sites.length) (hsm : sites.length < 2 ^ 63) :
    ∃ env, generateEnv d dflt sites.length sites oc = .ok env ∧
      Fresh d sites.length ⟨sites, startPair sites.length oc, env⟩ := by
  have hne : sites ≠ [] := by rintro rfl; simp at ho
  unfold generateEnv
  rw [if_neg (by rintro (h | h); exact hne h; omega)]
  have w1 : wr (List.replicate (sites.length + 2) dflt) (-1) d.edgeL
      = .ok ((List.replicate (sites.length + 2) dflt).set 0 d.edgeL) := by
    unfold wr; rw [if_pos (by simp)]; rfl
  have w2 : wr ((List.replicate (sites.length + 2) dflt).set 0 d.edgeL) (sites.length : Int) d.edgeR
      = .ok (((List.replicate (sites.length + 2) dflt).set 0 d.edgeL).set (sites.length + 1) d.edgeR) := by
    unfold wr
    rw [if_pos (by simp; omega), show ((sites.length : Int) + 1).toNat = sites.length + 1 by omega]
  generalize hE : ((List.replicate (sites.length + 2) dflt).set 0 d.edgeL).set (sites.length + 1) d.edgeR = env0 at w2
  have l0 : env0.length = sites.length + 2 := by rw [← hE]; simp
  have z0 : env0[0]? = some d.edgeL := by
    rw [← hE, List.getElem?_set_ne (by omega), List.getElem?_set_self (by simp)]
  have zl : env0[sites.length + 1]? = some d.edgeR := by
    rw [← hE, List.getElem?_set_self (by simp)]
  obtain ⟨env1, e1, l1, a1, b1⟩ := genLeft_ok d sites.length sites rfl oc env0 (by omega) l0 z0
  obtain ⟨env2, e2, l2, a2, b2⟩ := genRight_ok d sites.length sites rfl (by omega) (sites.length - 1 - oc) env1 (by omega) l1
    (by rw [b1 _ (by omega)]; exact zl)
  refine ⟨env2, ?_, ?_⟩
  · simp only [w1, w2, bind, Except.bind, e1, e2]
  · have hsp : startPair sites.length oc = if oc = sites.length - 1 then oc - 1 else oc := rfl
    refine ⟨rfl, l2, ?_, hsm, ?_, ?_⟩
    · simp only [hsp]; split <;> omega
    · intro i hi
      simp only [hsp] at hi ⊢
      rw [b2 i (by split at hi <;> omega), a1 i (by split at hi <;> omega)]
    · intro i hi hi2
      simp only [hsp] at hi ⊢
      rw [a2 i (by split at hi <;> omega) hi2]

end DM
end QuantiT
