import Verif.Lemmas.Dmrg
import Mathlib.Tactic.IntervalCases
/-
DMRG: walk (C49), environments (C50), orthogonality center (C51), stopping and logging (C52).
-/
namespace QuantiT
namespace DM
open Spec
variable {S E En : Type}

/-! ### The tour -/

theorem tour_inside (len q : Nat) (hlen : 2 ≤ len) (hq : q + 2 ≤ len) : ∀ x ∈ tour len q, x.1 + 1 < len := by
  intro x hx
  unfold tour at hx
  split at hx
  · simp at hx; subst hx; simp; omega
  · simp only [List.mem_append, List.mem_map, List.mem_range] at hx
    rcases hx with (⟨j, hj, rfl⟩ | ⟨j, hj, rfl⟩) | ⟨j, hj, rfl⟩ <;> simp only <;> omega

theorem tour_ne (len q : Nat) (hlen : 2 ≤ len) : tour len q ≠ [] := by
  unfold tour
  split
  · simp
  · intro h
    have := congrArg List.length h
    simp at this
    omega

/-- **C49**: the positions of a sweep.  Every update is at a position whose two sites exist, and every
neighbouring pair of the chain is updated. -/
theorem C49_tour (len q : Nat) (hlen : 2 ≤ len) (hq : q + 2 ≤ len) :
    (∀ o fwd, (o, fwd) ∈ tour len q → o + 1 < len) ∧ (∀ i, i + 1 < len → ∃ fwd, (i, fwd) ∈ tour len q) := by
  refine ⟨fun o fwd h => tour_inside len q hlen hq _ h, ?_⟩
  intro i hi
  unfold tour
  split
  · refine ⟨false, ?_⟩
    have : i = 0 := by omega
    subst this; simp
  · simp only [List.mem_append, List.mem_map, List.mem_range, Prod.mk.injEq]
    by_cases h : i + 2 < len
    · exact ⟨true, Or.inl (Or.inr ⟨i, by omega, rfl, rfl⟩)⟩
    · by_cases hq' : q + 2 = len
      · exact ⟨false, Or.inl (Or.inl ⟨0, by omega, by omega, rfl⟩)⟩
      · exact ⟨false, Or.inr ⟨0, by omega, by omega, rfl⟩⟩

/-! ### Runs of updates -/

theorem fresh_length (d : Dmrg S E En) (o : Nat) (fwd : Bool) (sites : List S) (r : En × List S)
    (h : d.fresh o fwd sites = .ok r) : r.2.length = sites.length := by
  unfold Dmrg.fresh at h
  split at h
  · cases hu : d.upd fwd o (d.left sites o) (d.right sites (o + 2)) _ _ with
    | error f => rw [hu] at h; cases h
    | ok x => rw [hu] at h; cases h; simp
  · cases h

theorem run_length (d : Dmrg S E En) : ∀ (l : List (Nat × Bool)) (x y : Option En × List S), d.run l x = .ok y →
    y.2.length = x.2.length
  | [], x, y, h => by cases h; rfl
  | (o, f) :: l, x, y, h => by
    unfold Dmrg.run at h
    cases hf : d.fresh o f x.2 with
    | error e => rw [hf] at h; cases h
    | ok r =>
      rw [hf] at h
      rw [run_length d l _ y h, fresh_length d o f _ _ hf]

theorem run_some (d : Dmrg S E En) : ∀ (l : List (Nat × Bool)) (x y : Option En × List S), d.run l x = .ok y →
    l ≠ [] ∨ x.1.isSome → ∃ e, y.1 = some e
  | [], x, y, h, hs => by
    cases h
    rcases hs with hs | hs
    · exact absurd rfl hs
    · exact Option.isSome_iff_exists.1 hs
  | (o, f) :: l, x, y, h, _ => by
    unfold Dmrg.run at h
    cases hf : d.fresh o f x.2 with
    | error e => rw [hf] at h; cases h
    | ok r =>
      rw [hf] at h
      exact run_some d l _ y h (Or.inr rfl)

theorem run_error (d : Dmrg S E En) : ∀ (l : List (Nat × Bool)) (x : Option En × List S) (f : Fault),
    (∀ p ∈ l, p.1 + 1 < x.2.length) → d.run l x = .error f →
    ∃ fwd o le re a b, d.upd fwd o le re a b = .error f
  | [], x, f, _, h => by cases h
  | (o, fwd) :: l, x, f, hp, h => by
    unfold Dmrg.run at h
    cases hf : d.fresh o fwd x.2 with
    | error e =>
      rw [hf] at h; cases h
      have ho := hp (o, fwd) (by simp)
      simp only at ho
      unfold Dmrg.fresh at hf
      rw [List.getElem?_eq_getElem (by omega), List.getElem?_eq_getElem ho] at hf
      simp only at hf
      cases hu : d.upd fwd o (d.left x.2 o) (d.right x.2 (o + 2)) x.2[o] x.2[o + 1] with
      | error e => rw [hu] at hf; cases hf; exact ⟨_, _, _, _, _, _, hu⟩
      | ok r => rw [hu] at hf; cases hf
    | ok r =>
      rw [hf] at h
      refine run_error d l _ f ?_ h
      intro p hp'
      simp only
      rw [fresh_length d o fwd _ _ hf]
      exact hp p (List.mem_cons_of_mem _ hp')

/-! ### The loop -/

/-- Number of updates in one sweep. -/
def nUpd (len : Nat) : Nat := if len = 2 then 2 else 2 * (len - 2)

theorem itLoop_error (d : Dmrg S E En) (above : En → En → Bool) (len : Nat) (hlen : 2 ≤ len) : ∀ (rem it : Nat) (e0 : En)
    (st : St S E) (log : List (Event S En)) (f : Fault), Fresh d len st →
    itLoop d above (len - 1) (len - 2) (nUpd len) rem it e0 (dir len st.oc) st log = .error f →
    ∃ fwd o le re a b, d.upd fwd o le re a b = .error f := by
  intro rem
  induction rem with
  | zero => intro it e0 st log f _ h; cases h
  | succ rem ih =>
    intro it e0 st log f hF h
    have hs := sweep_sim d len hlen st none hF
    unfold itLoop at h
    cases hr : d.run (tour len st.oc) (none, st.sites) with
    | error g =>
      rw [hr] at hs
      simp only [Sim] at hs
      unfold nUpd at h
      rw [hs] at h
      cases h
      refine run_error d _ _ f ?_ hr
      intro p hp
      rw [hF.slen]
      exact tour_inside len st.oc hlen hF.inside p hp
    | ok b =>
      rw [hr] at hs
      obtain ⟨⟨e', s', st'⟩, ha, q1, q2, q3, q4, q5⟩ := hs
      unfold nUpd at h
      rw [ha] at h
      simp only [bind, Except.bind] at h q1 q2 q3 q4 q5
      split at h
      · rw [q4, ← q3] at h
        exact ih _ _ st' _ f q5 h
      · cases h

theorem itLoop_ok (d : Dmrg S E En) (above : En → En → Bool) (len : Nat) (hlen : 2 ≤ len) : ∀ (rem it : Nat) (e0 : En)
    (st : St S E) (log : List (Event S En)) (out : Out S E En), Fresh d len st →
    itLoop d above (len - 1) (len - 2) (nUpd len) rem it e0 (dir len st.oc) st log = .ok out →
    ∃ h conv, History d above len st.oc rem e0 st.sites h conv ∧ h.getLast? = some (out.energy, out.st.sites) ∧
      out.st.oc = st.oc ∧ out.step = dir len st.oc ∧ Fresh d len out.st ∧
      out.log = log ++ ((h.drop 1).zipIdx it).map (fun p => .iteration p.2 p.1.1 p.1.2) ∧
      out.iteration + (if conv then 1 else 0) + 1 = it + h.length := by
  intro rem
  induction rem with
  | zero =>
    intro it e0 st log out hF h
    cases h
    refine ⟨[(e0, st.sites)], false, ⟨rfl, by simp, ?_, ?_, by simp, ?_⟩, rfl, rfl, rfl, hF, by simp, rfl⟩
    · intro k x y _ h; simp at h
    · intro k x y z _ h; simp at h
    · intro _; exact ⟨rfl, fun k x y _ h => by simp at h⟩
  | succ rem ih =>
    intro it e0 st log out hF h
    have hs := sweep_sim d len hlen st none hF
    unfold itLoop at h
    cases hr : d.run (tour len st.oc) (none, st.sites) with
    | error g =>
      rw [hr] at hs
      simp only [Sim] at hs
      unfold nUpd at h
      rw [hs] at h
      cases h
    | ok b =>
      rw [hr] at hs
      obtain ⟨⟨e', s', st'⟩, ha, q1, q2, q3, q4, q5⟩ := hs
      obtain ⟨en, hen⟩ := run_some d _ _ _ hr (Or.inl (tour_ne len st.oc hlen))
      obtain ⟨b1, b2⟩ := b
      simp only at q1 q2 q3 q4 q5 hen
      subst hen q1 q2 q4
      unfold nUpd at h
      rw [ha] at h
      simp only [bind, Except.bind, Option.getD_some] at h
      split at h
      · rename_i hab
        rw [← q3] at h
        obtain ⟨hh, conv, hH, hlast, o1, o2, o3, o4, o5⟩ := ih _ _ st' _ out q5 h
        rw [q3] at hH o1 o2
        obtain ⟨x0, rest, rfl⟩ : ∃ x0 rest, hh = x0 :: rest := by
          cases hh with
          | nil => have := hH.start; simp at this
          | cons x0 rest => exact ⟨x0, rest, rfl⟩
        have hx0 : x0 = (en, st'.sites) := by simpa using hH.start
        subst hx0
        refine ⟨(e0, st.sites) :: (en, st'.sites) :: rest, conv, ⟨rfl, ?_, ?_, ?_, ?_, ?_⟩, ?_, o1, o2, o3, ?_, ?_⟩
        · have := hH.bound; simp only [List.length_cons] at this ⊢; omega
        · intro k x y hx hy
          cases k with
          | zero => simp at hx hy; subst hx hy; exact hr
          | succ k => exact hH.sweep k x y (by simpa using hx) (by simpa using hy)
        · intro k x y z hx hy hz
          cases k with
          | zero => simp at hx hy; subst hx hy; exact hab
          | succ k => exact hH.goesOn k x y z (by simpa using hx) (by simpa using hy) (by simpa using hz)
        · intro hc
          obtain ⟨k, x, y, l1, l2, l3, l4⟩ := hH.stops hc
          exact ⟨k + 1, x, y, by simp only [List.length_cons] at l1 ⊢; omega, by simpa using l2, by simpa using l3, l4⟩
        · intro hc
          obtain ⟨l1, l2⟩ := hH.limit hc
          refine ⟨by simp only [List.length_cons] at l1 ⊢; omega, ?_⟩
          intro k x y hx hy
          cases k with
          | zero => simp at hx hy; subst hx hy; exact hab
          | succ k => exact l2 k x y (by simpa using hx) (by simpa using hy)
        · rw [List.getLast?_cons_cons]; exact hlast
        · rw [o4]; simp
        · simp only [List.length_cons] at o5 ⊢; omega
      · rename_i hab
        cases h
        refine ⟨[(e0, st.sites), (en, st'.sites)], true, ⟨rfl, by simp, ?_, ?_, ?_, by simp⟩, rfl, q3, rfl, q5, by simp, by simp⟩
        · intro k x y hx hy
          cases k with
          | zero => simp at hx hy; subst hx hy; exact hr
          | succ k => simp at hy
        · intro k x y z hx hy hz; simp at hz
        · intro _; exact ⟨0, _, _, rfl, rfl, rfl, by simpa using hab⟩


/-! ### The whole of `dmrg` -/

/-- What the logger hears during a run with history `h`. -/
def logOf (h : List (En × List S)) (last : Nat) (e : En) (fin : List S) : List (Event S En) :=
  [.init] ++ (h.drop 1).zipIdx.map (fun p => .iteration p.2 p.1.1 p.1.2) ++ [.done last e fin]

theorem dmrg_unfold (dense : Bool) (d : Dmrg S E En) (dflt : E) (above : En → En → Bool) (zeroNorm : List S → Bool)
    (moveOc : List S → Nat → Nat → Res (List S × Nat)) (e0 : En) (maxIt : Nat) (sites : List S) (oc : Nat)
    (h2 : 2 ≤ sites.length) (ho : oc < sites.length) (hsm : sites.length < 2 ^ 63) :
    ∃ env, Fresh d sites.length ⟨sites, startPair sites.length oc, env⟩ ∧
    dmrg dense d dflt above zeroNorm moveOc e0 maxIt sites.length sites oc =
      (if dense ∧ zeroNorm sites then Res.throw .invalidArgument
      else do
        let o ← itLoop d above (sites.length - 1) (sites.length - 2) (nUpd sites.length) maxIt 0 e0
          (dir sites.length (startPair sites.length oc)) ⟨sites, startPair sites.length oc, env⟩ [.init]
        if o.st.oc ≠ startPair sites.length oc ∧ o.st.oc ≠ LA.toU64 ((startPair sites.length oc : Int) - 1)
          ∧ startPair sites.length oc ≠ LA.toU64 ((sites.length : Int) - 1) then
          Res.throw .runtimeError
        else
          let oc' := if dense ∧ o.st.oc = 0 then 1 else o.st.oc
          let fin ← (if oc' ≠ startPair sites.length oc then moveOc o.st.sites oc' (startPair sites.length oc)
            else .ok (o.st.sites, oc') : Res (List S × Nat))
          .ok (o.energy, fin.1, fin.2, o.log ++ [.done o.iteration o.energy fin.1])) := by
  obtain ⟨env, hg, hF⟩ := generateEnv_ok d dflt sites oc h2 ho hsm
  refine ⟨env, hF, ?_⟩
  have u1 : LA.toU64 ((sites.length : Int) - 1) = sites.length - 1 := by
    rw [toU64_eq (by omega) (by omega)]; omega
  have u2 : LA.toU64 ((sites.length : Int) - 2) = sites.length - 2 := by
    rw [toU64_eq (by omega) (by omega)]; omega
  have u3 : (if oc = LA.toU64 ((sites.length : Int) - 1) then LA.toU64 ((oc : Int) - 1) else oc)
      = startPair sites.length oc := by
    unfold startPair
    rw [u1]
    split
    · rw [toU64_eq (by omega) (by omega)]; omega
    · rfl
  have u4 : LA.toU64 (2 * (LA.toU64 (((sites.length - 1 : Nat) : Int) - 1 + (if sites.length - 1 = 1 then 1 else 0)) : Nat)) = nUpd sites.length := by
    unfold nUpd
    by_cases hl : sites.length = 2
    · rw [if_pos hl, if_pos (by omega), hl]; rfl
    · rw [if_neg hl, if_neg (by omega)]
      have ha : LA.toU64 (((sites.length - 1 : Nat) : Int) - 1 + 0) = sites.length - 2 := by
        rw [toU64_eq (by omega) (by omega)]; omega
      rw [ha, toU64_eq (by omega) (by omega)]; omega
  have u5 : (if sites.length - 1 = 1 then (0 : Int) else if oc = 0 then 1 else -1)
      = dir sites.length (startPair sites.length oc) := by
    unfold dir startPair
    by_cases hl : sites.length = 2
    · rw [if_pos (by omega), if_pos hl]
    · rw [if_neg (by omega), if_neg hl]
      by_cases h0 : oc = 0
      · have h1 : ¬ (oc = sites.length - 1) := by omega
        rw [if_neg h1]
      · rw [if_neg h0]
        split
        · have h1 : ¬ (oc - 1 = 0) := by omega
          rw [if_neg h1]
        · rfl
  unfold dmrg
  rw [hg]
  simp only [bind, Except.bind, u1, u4]
  by_cases hz : dense = true ∧ zeroNorm sites = true
  · rw [if_pos hz, if_pos hz]
  · rw [if_neg hz, if_neg hz]
    rw [u1] at u3
    simp only [u2, u3, u4, u5]

/-- The center of `fin` and how it was obtained from the tensors left by the sweeps: only the dense flavour, when the
sweeps start at pair 0, calls `move_oc`. -/
def Finish (dense : Bool) (moveOc : List S → Nat → Nat → Res (List S × Nat)) (q : Nat) (s : List S)
    (fin : List S) (oc : Nat) : Prop :=
  if dense ∧ q = 0 then moveOc s 1 0 = .ok (fin, oc) else fin = s ∧ oc = q

/-- Everything about a `dmrg` that returns: a history of sweeps, each the tour from the starting pair with fresh
environments; the results; the log. -/
theorem dmrg_ok (dense : Bool) (d : Dmrg S E En) (dflt : E) (above : En → En → Bool) (zeroNorm : List S → Bool)
    (moveOc : List S → Nat → Nat → Res (List S × Nat)) (e0 : En) (maxIt : Nat) (sites : List S) (oc : Nat)
    (h2 : 2 ≤ sites.length) (ho : oc < sites.length) (hsm : sites.length < 2 ^ 63)
    (e : En) (fin : List S) (oc' : Nat) (log : List (Event S En))
    (hr : dmrg dense d dflt above zeroNorm moveOc e0 maxIt sites.length sites oc = .ok (e, fin, oc', log)) :
    ∃ h conv s last, History d above sites.length (startPair sites.length oc) maxIt e0 sites h conv ∧
      h.getLast? = some (e, s) ∧ Finish dense moveOc (startPair sites.length oc) s fin oc' ∧
      log = logOf h last e fin ∧ last + (if conv then 1 else 0) + 1 = h.length := by
  obtain ⟨env, hF, hE⟩ := dmrg_unfold dense d dflt above zeroNorm moveOc e0 maxIt sites oc h2 ho hsm
  rw [hE] at hr
  split at hr
  · cases hr
  · cases hl : itLoop d above (sites.length - 1) (sites.length - 2) (nUpd sites.length) maxIt 0 e0
          (dir sites.length (startPair sites.length oc)) ⟨sites, startPair sites.length oc, env⟩ [.init] with
    | error f => rw [hl] at hr; cases hr
    | ok o =>
      rw [hl] at hr
      obtain ⟨h, conv, hH, hlast, o1, o2, o3, o4, o5⟩ := itLoop_ok d above sites.length h2 maxIt 0 e0 _ _ o hF hl
      simp only at hH o1 o2 o4 o5
      simp only [bind, Except.bind] at hr
      rw [if_neg (by rw [o1]; simp)] at hr
      refine ⟨h, conv, o.st.sites, o.iteration, hH, ?_⟩
      by_cases hd : dense = true ∧ o.st.oc = 0
      · rw [if_pos hd, if_pos (by omega)] at hr
        cases hm : moveOc o.st.sites 1 (startPair sites.length oc) with
        | error f => rw [hm] at hr; cases hr
        | ok r =>
          rw [hm] at hr
          obtain ⟨r1, r2⟩ := r
          cases hr
          refine ⟨hlast, ?_, ?_, by omega⟩
          · unfold Finish
            rw [if_pos ⟨hd.1, by omega⟩, ← hm, ← o1, hd.2]
          · unfold logOf; rw [o4]
      · rw [if_neg hd, if_neg (by omega)] at hr
        cases hr
        refine ⟨hlast, ?_, ?_, by omega⟩
        · unfold Finish
          rw [if_neg (by rintro ⟨a, b⟩; exact hd ⟨a, by omega⟩)]
          exact ⟨rfl, o1⟩
        · unfold logOf; rw [o4]

/-- **C49**: for a chain of at least two sites and any starting center, the only ways `dmrg` can fail are a failing
local update, a failing final `move_oc`, or the refusal of a zero state by the dense flavour.  In particular the walk
never leaves the chain (which would be undefined behaviour) and the surprising-center error is never raised. -/
theorem C49_only_update_fails (dense : Bool) (d : Dmrg S E En) (dflt : E) (above : En → En → Bool)
    (zeroNorm : List S → Bool) (moveOc : List S → Nat → Nat → Res (List S × Nat)) (e0 : En) (maxIt : Nat)
    (sites : List S) (oc : Nat) (h2 : 2 ≤ sites.length) (ho : oc < sites.length) (hsm : sites.length < 2 ^ 63)
    (f : Fault) (hr : dmrg dense d dflt above zeroNorm moveOc e0 maxIt sites.length sites oc = .error f) :
    (∃ fwd o le re a b, d.upd fwd o le re a b = .error f) ∨ (∃ s, moveOc s 1 0 = .error f) ∨
      (f = .throw .invalidArgument ∧ dense = true ∧ zeroNorm sites = true) := by
  obtain ⟨env, hF, hE⟩ := dmrg_unfold dense d dflt above zeroNorm moveOc e0 maxIt sites oc h2 ho hsm
  rw [hE] at hr
  split at hr
  · rename_i hz
    cases hr
    exact Or.inr (Or.inr ⟨rfl, hz.1, hz.2⟩)
  · cases hl : itLoop d above (sites.length - 1) (sites.length - 2) (nUpd sites.length) maxIt 0 e0
          (dir sites.length (startPair sites.length oc)) ⟨sites, startPair sites.length oc, env⟩ [.init] with
    | error g =>
      rw [hl] at hr; cases hr
      exact Or.inl (itLoop_error d above sites.length h2 maxIt 0 e0 _ _ f hF hl)
    | ok o =>
      rw [hl] at hr
      obtain ⟨h, conv, hH, hlast, o1, o2, o3, o4, o5⟩ := itLoop_ok d above sites.length h2 maxIt 0 e0 _ _ o hF hl
      simp only [bind, Except.bind] at hr o1
      rw [if_neg (by rw [o1]; simp)] at hr
      by_cases hd : dense = true ∧ o.st.oc = 0
      · rw [if_pos hd, if_pos (by omega)] at hr
        have h0 : startPair sites.length oc = 0 := by omega
        rw [h0] at hr
        cases hm : moveOc o.st.sites 1 0 with
        | error g => rw [hm] at hr; cases hr; exact Or.inr (Or.inl ⟨_, hm⟩)
        | ok r => rw [hm] at hr; cases hr
      · rw [if_neg hd, if_neg (by omega)] at hr
        cases hr

/-- **C49**: when `dmrg` returns, every sweep was the tour that starts and ends at the same pair `q` (so the center and
direction after a sweep are those before it), and the center reported is `q`, except that the dense flavour
finishes with `move_oc(0)` when `q = 0`. -/
theorem C49_sweeps (dense : Bool) (d : Dmrg S E En) (dflt : E) (above : En → En → Bool) (zeroNorm : List S → Bool)
    (moveOc : List S → Nat → Nat → Res (List S × Nat)) (e0 : En) (maxIt : Nat) (sites : List S) (oc : Nat)
    (h2 : 2 ≤ sites.length) (ho : oc < sites.length) (hsm : sites.length < 2 ^ 63)
    (e : En) (fin : List S) (oc' : Nat) (log : List (Event S En))
    (hr : dmrg dense d dflt above zeroNorm moveOc e0 maxIt sites.length sites oc = .ok (e, fin, oc', log)) :
    ∃ h conv s, History d above sites.length (startPair sites.length oc) maxIt e0 sites h conv ∧
      h.getLast? = some (e, s) ∧ Finish dense moveOc (startPair sites.length oc) s fin oc' := by
  obtain ⟨h, conv, s, last, a, b, c, _⟩ := dmrg_ok dense d dflt above zeroNorm moveOc e0 maxIt sites oc h2 ho hsm e fin oc' log hr
  exact ⟨h, conv, s, a, b, c⟩

/-- **C50**: energies and tensors of `dmrg`, which caches environments, are those of a procedure that recomputes,
for every local update, the left environment from the current tensors of all sites to the left and the right
environment from the current tensors of all sites to the right (`Dmrg.fresh`).  The cached `dmrg` fails
exactly like the procedure would: see `C49_only_update_fails`. -/
theorem C50_fresh_environments (dense : Bool) (d : Dmrg S E En) (dflt : E) (above : En → En → Bool)
    (zeroNorm : List S → Bool) (moveOc : List S → Nat → Nat → Res (List S × Nat)) (e0 : En) (maxIt : Nat)
    (sites : List S) (oc : Nat) (h2 : 2 ≤ sites.length) (ho : oc < sites.length) (hsm : sites.length < 2 ^ 63)
    (e : En) (fin : List S) (oc' : Nat) (log : List (Event S En))
    (hr : dmrg dense d dflt above zeroNorm moveOc e0 maxIt sites.length sites oc = .ok (e, fin, oc', log)) :
    ∃ h : List (En × List S), h[0]? = some (e0, sites) ∧
      (∀ k x y, h[k]? = some x → h[k + 1]? = some y →
        d.run (tour sites.length (startPair sites.length oc)) (none, x.2) = .ok (some y.1, y.2)) ∧
      ∃ s, h.getLast? = some (e, s) ∧ (¬ (dense = true ∧ startPair sites.length oc = 0) → fin = s) := by
  obtain ⟨h, conv, s, last, a, b, c, _⟩ := dmrg_ok dense d dflt above zeroNorm moveOc e0 maxIt sites oc h2 ho hsm e fin oc' log hr
  refine ⟨h, a.start, a.sweep, s, b, fun hn => ?_⟩
  unfold Finish at c
  rw [if_neg hn] at c
  exact c.1

/-- One sweep of the code, from fresh environments, is the tour with fresh environments, in both directions: same
result, same error; afterwards environments are fresh again. -/
theorem C50_sweep (d : Dmrg S E En) (len : Nat) (hlen : 2 ≤ len) (st : St S E) (h : Fresh d len st) :
    Sim (PartQ d len st.oc (dir len st.oc)) (sweepLoop d (len - 1) (len - 2) (nUpd len) none (dir len st.oc) st)
      (d.run (tour len st.oc) (none, st.sites)) := sweep_sim d len hlen st none h

/-- **C52** (partial: when the limit on iterations is reached the number given to `end_log_all` is that limit, not
the number given to the last `it_log_all`).  At most `maximum_iterations` sweeps; a further sweep is made only if
the change was above the criterion; the run stops at the first change that is not above it (`History`); the logger
hears `init`, then one iteration per sweep numbered 0, 1, 2, …, with the energy and tensors after that sweep, then the
end once; and the number at the end is that of the last iteration when the run converged. -/
theorem C52_log_partial (dense : Bool) (d : Dmrg S E En) (dflt : E) (above : En → En → Bool)
    (zeroNorm : List S → Bool) (moveOc : List S → Nat → Nat → Res (List S × Nat)) (e0 : En) (maxIt : Nat)
    (sites : List S) (oc : Nat) (h2 : 2 ≤ sites.length) (ho : oc < sites.length) (hsm : sites.length < 2 ^ 63)
    (e : En) (fin : List S) (oc' : Nat) (log : List (Event S En))
    (hr : dmrg dense d dflt above zeroNorm moveOc e0 maxIt sites.length sites oc = .ok (e, fin, oc', log)) :
    ∃ (h : List (En × List S)) (conv : Bool) (last : Nat),
      History d above sites.length (startPair sites.length oc) maxIt e0 sites h conv ∧
      (h.drop 1).length ≤ maxIt ∧
      log = [.init] ++ (h.drop 1).zipIdx.map (fun p => .iteration p.2 p.1.1 p.1.2) ++ [.done last e fin] ∧
      (conv = true → last + 1 = (h.drop 1).length) ∧ (conv = false → last = maxIt) := by
  obtain ⟨h, conv, s, last, a, b, _, c, g⟩ := dmrg_ok dense d dflt above zeroNorm moveOc e0 maxIt sites oc h2 ho hsm e fin oc' log hr
  have hb := a.bound
  refine ⟨h, conv, last, a, by simp; omega, c, ?_, ?_⟩
  · intro hc; subst hc; simp at g ⊢; omega
  · intro hc
    have := (a.limit hc).1
    subst hc; simp at g ⊢; omega

/-! ### The orthogonality center -/

/-- After a run, a site whose last update was a forward one at its own position satisfies `Lo`, and one whose last update
was a backward one at the previous position satisfies `Ro`; more generally whatever that update guarantees. -/
theorem run_last (d : Dmrg S E En) (Inv : List S → Prop) (P : S → Prop) (o : Nat) (fwd : Bool) (i : Nat)
    (hI : ∀ fwd o s r, Inv s → d.fresh o fwd s = .ok r → Inv r.2)
    (hP : ∀ s r A, Inv s → d.fresh o fwd s = .ok r → r.2[i]? = some A → P A)
    (l1 l2 : List (Nat × Bool)) (h2 : ∀ p ∈ l2, p.1 ≠ i ∧ p.1 + 1 ≠ i)
    (x y : Option En × List S) (hx : Inv x.2) (hr : d.run (l1 ++ (o, fwd) :: l2) x = .ok y) :
    ∀ A, y.2[i]? = some A → P A := by
  induction l1 generalizing x with
  | nil =>
    simp only [List.nil_append] at hr
    unfold Dmrg.run at hr
    cases hf : d.fresh o fwd x.2 with
    | error e => rw [hf] at hr; cases hr
    | ok r =>
      rw [hf] at hr
      have hb := fun A => hP x.2 r A hx hf
      suffices h : ∀ (l : List (Nat × Bool)) (z : Option En × List S), (∀ p ∈ l, p.1 ≠ i ∧ p.1 + 1 ≠ i) →
          d.run l z = .ok y → y.2[i]? = z.2[i]? by
        intro A hA
        rw [h l2 _ h2 hr] at hA
        exact hb A hA
      intro l
      induction l with
      | nil => intro z _ h; cases h; rfl
      | cons p l ih =>
        intro z hl h
        obtain ⟨o', f'⟩ := p
        unfold Dmrg.run at h
        cases hg : d.fresh o' f' z.2 with
        | error e => rw [hg] at h; cases h
        | ok r' =>
          rw [hg] at h
          rw [ih _ (fun p hp => hl p (List.mem_cons_of_mem _ hp)) h]
          obtain ⟨n1, n2⟩ := hl (o', f') (by simp)
          unfold Dmrg.fresh at hg
          split at hg
          · cases hu : d.upd f' o' (d.left z.2 o') (d.right z.2 (o' + 2)) _ _ with
            | error f => rw [hu] at hg; cases hg
            | ok w =>
              rw [hu] at hg; cases hg
              simp only at n1 n2 ⊢
              rw [List.getElem?_set_ne n2, List.getElem?_set_ne n1]
          · cases hg
  | cons p l1 ih =>
    obtain ⟨o', f'⟩ := p
    simp only [List.cons_append] at hr
    unfold Dmrg.run at hr
    cases hg : d.fresh o' f' x.2 with
    | error e => rw [hg] at hr; cases hr
    | ok r' =>
      rw [hg] at hr
      exact ih _ (hI f' o' x.2 r' hx hg) hr

theorem range_split (n i : Nat) (hi : i < n) :
    List.range n = List.range i ++ i :: (List.range (n - i - 1)).map (fun j => i + 1 + j) := by
  obtain ⟨m, rfl⟩ : ∃ m, n = i + 1 + m := ⟨n - i - 1, by omega⟩
  rw [show i + 1 + m - i - 1 = m by omega, List.range_add, List.range_succ]
  simp

/-- The last update of a site left of the true center, right of it, and at it. -/
theorem tour_left (len q i : Nat) (h3 : 3 ≤ len) (hiq : i ≤ q) (hi : i + 2 < len) :
    ∃ l1 l2, tour len q = l1 ++ (i, true) :: l2 ∧ ∀ p ∈ l2, p.1 ≠ i ∧ p.1 + 1 ≠ i := by
  unfold tour
  rw [if_neg (by omega)]
  refine ⟨(List.range q).map (fun j => (q - j, false)) ++ (List.range i).map (fun j => (j, true)),
    (List.range (len - 2 - i - 1)).map (fun j => (i + 1 + j, true)) ++
    (List.range (len - 2 - q)).map (fun j => (len - 2 - j, false)), ?_, ?_⟩
  · rw [range_split (len - 2) i (by omega)]
    simp
  · intro p hp
    simp only [List.mem_append, List.mem_map, List.mem_range] at hp
    rcases hp with ⟨j, hj, rfl⟩ | ⟨j, hj, rfl⟩ <;> simp only <;> omega

theorem tour_right (len q i : Nat) (h3 : 3 ≤ len) (hiq : q + 2 ≤ i) (hi : i < len) :
    ∃ l1 l2, tour len q = l1 ++ (i - 1, false) :: l2 ∧ ∀ p ∈ l2, p.1 ≠ i ∧ p.1 + 1 ≠ i := by
  unfold tour
  rw [if_neg (by omega)]
  refine ⟨(List.range q).map (fun j => (q - j, false)) ++ (List.range (len - 2)).map (fun j => (j, true))
    ++ (List.range (len - 1 - i)).map (fun j => (len - 2 - j, false)),
    (List.range (len - 2 - q - (len - 1 - i) - 1)).map (fun j => (len - 2 - (len - 1 - i + 1 + j), false)), ?_, ?_⟩
  · rw [range_split (len - 2 - q) (len - 1 - i) (by omega)]
    have : i - 1 = len - 2 - (len - 1 - i) := by omega
    rw [this]
    simp
  · intro p hp
    simp only [List.mem_map, List.mem_range] at hp
    obtain ⟨j, hj, rfl⟩ := hp
    simp only; omega

theorem tour_right_edge (len : Nat) (h3 : 3 ≤ len) :
    ∃ l1 l2, tour len (len - 2) = l1 ++ (len - 2, false) :: l2 ∧ ∀ p ∈ l2, p.1 ≠ len - 1 ∧ p.1 + 1 ≠ len - 1 := by
  unfold tour
  rw [if_neg (by omega)]
  refine ⟨[], (List.range (len - 2 - 0 - 1)).map (fun j => (len - 2 - (0 + 1 + j), false))
    ++ (List.range (len - 2)).map (fun j => (j, true)), ?_, ?_⟩
  · rw [Nat.sub_self]
    conv_lhs => arg 1; arg 1; rw [range_split (len - 2) 0 (by omega)]
    simp
  · intro p hp
    simp only [List.mem_append, List.mem_map, List.mem_range] at hp
    rcases hp with ⟨j, hj, rfl⟩ | ⟨j, hj, rfl⟩ <;> simp only <;> omega

/-- Where the center of the tensors really is after a sweep that starts and ends at pair `q`. -/
def trueCenter (len q : Nat) : Nat := if q + 2 = len then q else q + 1

theorem tour_canon (d : Dmrg S E En) (Inv : List S → Prop) (Lo Ro : S → Prop)
    (hI : ∀ fwd o s r, Inv s → d.fresh o fwd s = .ok r → Inv r.2)
    (hL : ∀ o s r A, Inv s → d.fresh o true s = .ok r → r.2[o]? = some A → Lo A)
    (hR : ∀ o s r A, Inv s → d.fresh o false s = .ok r → r.2[o + 1]? = some A → Ro A)
    (len q : Nat) (h2 : 2 ≤ len) (hq : q + 2 ≤ len) (x y : Option En × List S) (hlen : x.2.length = len)
    (hx : Inv x.2) (hr : d.run (tour len q) x = .ok y) : Canon Lo Ro y.2 (trueCenter len q) := by
  have hy := run_length d _ _ _ hr
  by_cases hl2 : len = 2
  · have hq0 : q = 0 := by omega
    subst hl2 hq0
    refine ⟨fun i A hA hi => by simp [trueCenter] at hi, fun i A hA hi => ?_⟩
    have hi1 : i = 1 := by
      have := (List.getElem?_eq_some_iff.1 hA).1
      simp [trueCenter] at hi; omega
    subst hi1
    exact run_last d Inv Ro 0 false 1 hI (fun s r A h1 h2 h3 => hR 0 s r A h1 h2 h3) [(0, false)] [] (by simp) x y hx hr A hA
  · refine ⟨fun i A hA hi => ?_, fun i A hA hi => ?_⟩
    · have hi' : i ≤ q ∧ i + 2 < len := by
        unfold trueCenter at hi; split at hi <;> omega
      obtain ⟨l1, l2, e, hl⟩ := tour_left len q i (by omega) hi'.1 hi'.2
      rw [e] at hr
      exact run_last d Inv Lo i true i hI (fun s r A h1 h2 h3 => hL i s r A h1 h2 h3) l1 l2 hl x y hx hr A hA
    · have hlt := (List.getElem?_eq_some_iff.1 hA).1
      by_cases hqe : q + 2 = len
      · have : i = len - 1 := by unfold trueCenter at hi; rw [if_pos hqe] at hi; omega
        obtain ⟨l1, l2, e, hl⟩ := tour_right_edge len (by omega)
        rw [show q = len - 2 by omega, e] at hr
        rw [this] at hA
        exact run_last d Inv Ro (len - 2) false (len - 1) hI
          (fun s r A h1 h2 h3 => hR (len - 2) s r A h1 h2 (by rw [← h3]; congr 1; omega)) l1 l2 hl x y hx hr A hA
      · have hi' : q + 2 ≤ i := by unfold trueCenter at hi; rw [if_neg hqe] at hi; omega
        obtain ⟨l1, l2, e, hl⟩ := tour_right len q i (by omega) hi' (by omega)
        rw [e] at hr
        exact run_last d Inv Ro (i - 1) false i hI
          (fun s r A h1 h2 h3 => hR (i - 1) s r A h1 h2 (by rw [← h3]; congr 1; omega)) l1 l2 hl x y hx hr A hA

theorem hk_inv (d : Dmrg S E En) (Inv : List S → Prop)
    (hI : ∀ fwd o s r, Inv s → d.fresh o fwd s = .ok r → Inv r.2) :
    ∀ (l : List (Nat × Bool)) (x y : Option En × List S), Inv x.2 → d.run l x = .ok y → Inv y.2 := by
  intro l
  induction l with
  | nil => intro x y hx hr; cases hr; exact hx
  | cons p l ih =>
    intro x y hx hr
    obtain ⟨o, f⟩ := p
    unfold Dmrg.run at hr
    cases hg : d.fresh o f x.2 with
    | error e => rw [hg] at hr; cases hr
    | ok r => rw [hg] at hr; exact ih _ _ (hI f o _ _ hx hg) hr

/-- The last sweep of a history. -/
theorem history_last {d : Dmrg S E En} {above : En → En → Bool} {len q max : Nat} {e0 : En} {sites : List S}
    {h : List (En × List S)} {conv : Bool} (H : History d above len q max e0 sites h conv) (hm : 1 ≤ max)
    (Inv : List S → Prop) (hI : ∀ fwd o s r, Inv s → d.fresh o fwd s = .ok r → Inv r.2) (h0 : Inv sites)
    {e : En} {s : List S} (hl : h.getLast? = some (e, s)) :
    ∃ s', Inv s' ∧ s'.length = sites.length ∧ d.run (tour len q) (none, s') = .ok (some e, s) := by
  have hlen : 2 ≤ h.length := by
    cases conv with
    | true => obtain ⟨k, _, _, hk, _⟩ := H.stops rfl; omega
    | false => have := (H.limit rfl).1; omega
  have hrun := hk_inv d Inv hI
  have hk : ∀ (k : Nat) (x : En × List S), h[k]? = some x → Inv x.2 ∧ x.2.length = sites.length := by
    intro k
    induction k with
    | zero => intro x hx; rw [H.start] at hx; cases hx; exact ⟨h0, rfl⟩
    | succ k ih =>
      intro x hx
      have hlt := (List.getElem?_eq_some_iff.1 hx).1
      have hp : h[k]? = some (h[k]'(by omega)) := List.getElem?_eq_getElem _
      have hs := H.sweep k _ _ hp hx
      obtain ⟨i1, i2⟩ := ih _ hp
      exact ⟨hrun _ _ _ i1 hs, (run_length d _ _ _ hs).trans i2⟩
  have hp : h[h.length - 2]? = some (h[h.length - 2]'(by omega)) := List.getElem?_eq_getElem _
  have hq : h[h.length - 2 + 1]? = some (e, s) := by
    rw [← hl, List.getLast?_eq_getElem?]; congr 1; omega
  exact ⟨_, (hk _ _ hp).1, (hk _ _ hp).2, H.sweep _ _ _ hp hq⟩

/-- What `move_oc` promises (C45), for chains that satisfy `Inv`. -/
def MoveOcOk (Inv : List S → Prop) (Lo Ro : S → Prop) (moveOc : List S → Nat → Nat → Res (List S × Nat)) : Prop :=
  ∀ s i j s' o, Inv s → i < s.length → j < s.length → moveOc s i j = .ok (s', o) → o = j ∧
    (∀ k A, s'[k]? = some A → i ≤ k → k < j → Lo A) ∧ (∀ k A, s'[k]? = some A → j < k → k ≤ i → Ro A) ∧
    (∀ k, (k < i ∧ k < j) ∨ (i < k ∧ j < k) → s'[k]? = s[k]?)

/-- **C51** (partial: at least one sweep, and the sweeps start at the right end, or at the left end with the dense
flavour; for the other cases see `C51_fails`).  When forward updates leave a left-orthonormal first site and
backward updates a right-orthonormal second site, the tensors left of the reported center are left-orthonormal and
those right of it right-orthonormal. -/
theorem C51_partial (dense : Bool) (d : Dmrg S E En) (dflt : E) (above : En → En → Bool)
    (zeroNorm : List S → Bool) (moveOc : List S → Nat → Nat → Res (List S × Nat)) (e0 : En) (maxIt : Nat)
    (sites : List S) (oc : Nat) (h2 : 2 ≤ sites.length) (ho : oc < sites.length) (hsm : sites.length < 2 ^ 63)
    (e : En) (fin : List S) (oc' : Nat) (log : List (Event S En))
    (hr : dmrg dense d dflt above zeroNorm moveOc e0 maxIt sites.length sites oc = .ok (e, fin, oc', log))
    (Inv : List S → Prop) (Lo Ro : S → Prop) (h0 : Inv sites)
    (hI : ∀ fwd o s r, Inv s → d.fresh o fwd s = .ok r → Inv r.2)
    (hL : ∀ o s r A, Inv s → d.fresh o true s = .ok r → r.2[o]? = some A → Lo A)
    (hR : ∀ o s r A, Inv s → d.fresh o false s = .ok r → r.2[o + 1]? = some A → Ro A)
    (hM : MoveOcOk Inv Lo Ro moveOc) (hmax : 1 ≤ maxIt)
    (hcase : sites.length ≤ oc + 2 ∨ (dense = true ∧ oc = 0)) : Canon Lo Ro fin oc' := by
  obtain ⟨h, conv, s, H, hlast, hfin⟩ := C49_sweeps dense d dflt above zeroNorm moveOc e0 maxIt sites oc h2 ho hsm e fin oc' log hr
  have hin : startPair sites.length oc + 2 ≤ sites.length := by unfold startPair; split <;> omega
  obtain ⟨s', i1, i2, hrun⟩ := history_last H hmax Inv hI h0 hlast
  have hc := tour_canon d Inv Lo Ro hI hL hR sites.length _ h2 hin _ _ i2 i1 hrun
  have hsl : s.length = sites.length := (run_length d _ _ _ hrun).trans i2
  have hInv : Inv s := by
    have := hk_inv d Inv hI _ _ _ i1 hrun
    exact this
  unfold Finish at hfin
  split at hfin
  · rename_i hd
    obtain ⟨m1, m2, m3, m4⟩ := hM s 1 0 fin oc' hInv (by omega) (by omega) hfin
    subst m1
    refine ⟨fun i A _ hi => by omega, fun i A hA hi => ?_⟩
    by_cases h1 : i ≤ 1
    · exact m3 i A hA hi h1
    · rw [m4 i (by omega)] at hA
      refine hc.2 i A hA ?_
      unfold trueCenter; split <;> omega
  · rename_i hd
    obtain ⟨rfl, rfl⟩ := hfin
    have : trueCenter sites.length (startPair sites.length oc) = startPair sites.length oc := by
      unfold trueCenter
      rw [if_pos]
      unfold startPair at hd ⊢
      split <;> rename_i hs
      · omega
      · rw [if_neg hs] at hd
        rcases hcase with hcase | hcase
        · omega
        · exact absurd hcase hd
    rw [this] at hc
    exact hc

/-- **C51 fails** in the other cases: a chain of at least three sites, with the sweeps starting inside the chain, or
at the left end for the block flavour.  As soon as the center tensor left by a backward update is not
right-orthonormal (true of a normalised tensor whose left bond is larger than one, `not_rightOrth`), the reported
center is wrong: site `oc + 1` is not right-orthonormal. -/
theorem C51_fails (dense : Bool) (d : Dmrg S E En) (dflt : E) (above : En → En → Bool)
    (zeroNorm : List S → Bool) (moveOc : List S → Nat → Nat → Res (List S × Nat)) (e0 : En) (maxIt : Nat)
    (sites : List S) (oc : Nat) (hsm : sites.length < 2 ^ 63)
    (e : En) (fin : List S) (oc' : Nat) (log : List (Event S En))
    (hr : dmrg dense d dflt above zeroNorm moveOc e0 maxIt sites.length sites oc = .ok (e, fin, oc', log))
    (Inv : List S → Prop) (Lo Ro : S → Prop) (h0 : Inv sites)
    (hI : ∀ fwd o s r, Inv s → d.fresh o fwd s = .ok r → Inv r.2)
    (hC : ∀ o s r A, Inv s → d.fresh o false s = .ok r → r.2[o]? = some A → ¬ Ro A) (hmax : 1 ≤ maxIt)
    (hcase : oc + 2 < sites.length ∧ (0 < oc ∨ dense = false)) : ¬ Canon Lo Ro fin oc' := by
  have hsp : startPair sites.length oc = oc := by unfold startPair; rw [if_neg (by omega)]
  obtain ⟨h, conv, s, H, hlast, hfin⟩ := C49_sweeps dense d dflt above zeroNorm moveOc e0 maxIt sites oc (by omega)
    (by omega) hsm e fin oc' log hr
  obtain ⟨s', i1, i2, hrun⟩ := history_last H hmax Inv hI h0 hlast
  have hsl : s.length = sites.length := (run_length d _ _ _ hrun).trans i2
  unfold Finish at hfin
  rw [hsp] at hfin hrun
  rw [if_neg (by rintro ⟨a, b⟩; rcases hcase.2 with h | h; omega; simp [a] at h)] at hfin
  obtain ⟨rfl, rfl⟩ := hfin
  have hlast : ∃ l1, tour sites.length oc' = l1 ++ (oc' + 1, false) :: [] := by
    unfold tour
    rw [if_neg (by omega), range_split (sites.length - 2 - oc') (sites.length - 2 - oc' - 1) (by omega)]
    refine ⟨(List.range oc').map (fun j => (oc' - j, false)) ++ (List.range (sites.length - 2)).map (fun j => (j, true))
      ++ (List.range (sites.length - 2 - oc' - 1)).map (fun j => (sites.length - 2 - j, false)), ?_⟩
    have h1 : sites.length - 2 - oc' - (sites.length - 2 - oc' - 1) - 1 = 0 := by omega
    have h2 : sites.length - 2 - (sites.length - 2 - oc' - 1) = oc' + 1 := by omega
    rw [h1]
    simp [h2]
  obtain ⟨l1, hl1⟩ := hlast
  rw [hl1] at hrun
  intro hcan
  have hlt : oc' + 1 < fin.length := by omega
  exact run_last d Inv (fun A => ¬ Ro A) (oc' + 1) false (oc' + 1) hI
    (fun s r A a b c => hC (oc' + 1) s r A a b c) l1 [] (by simp) _ _ i1 hrun _ (List.getElem?_eq_getElem hlt)
    (hcan.2 _ _ (List.getElem?_eq_getElem hlt) (by omega))

/-! ### Concrete runs -/

/-- A DMRG on labels: 1 for a left-orthonormal tensor, 2 for a right-orthonormal one, 0 for the center.  The energy counts
the updates seen so far by the environments. -/
def tagged : Dmrg Nat Nat Nat where
  upd := fun fwd o le re _ _ => .ok (10 * le + re + o, if fwd then (1, 0) else (0, 2))
  lenv := fun _ s e => s + e
  renv := fun _ s e => s + e
  edgeL := 1
  edgeR := 1

/-- The run of the tests of `C51` and `C52`: four sites, the center at 1, two sweeps allowed. -/
def tagRun (dense : Bool) (oc : Nat) (maxIt : Nat) : Res (Nat × List Nat × Nat × List (Event Nat Nat)) :=
  dmrg dense tagged 0 (fun _ _ => true) (fun _ => false) (fun s _ j => .ok ((s.set 1 2).set 0 0, j)) 100000 maxIt 4
    [0, 0, 0, 0] oc

/-- Sweeps of four sites from position 1. -/
example : tour 4 1 = [(1, false), (0, true), (1, true), (2, false)] := rfl

/-- A full run: starting center 1, two sweeps; the tensors are canonical around site 2 although 1 is reported. -/
example : tagRun false 1 2 = .ok (33, [1, 1, 0, 2], 1,
    [.init, .iteration 0 33 [1, 1, 0, 2], .iteration 1 33 [1, 1, 0, 2], .done 2 33 [1, 1, 0, 2]]) := rfl

/-- A converged run stops early and reports the same number twice. -/
example : dmrg false tagged 0 (fun a b => a != b) (fun _ => false) (fun s _ j => .ok (s, j)) 100000 1000 4
    [0, 0, 0, 0] 3 = .ok (24, [1, 1, 0, 2], 2,
    [.init, .iteration 0 24 [1, 1, 0, 2], .iteration 1 24 [1, 1, 0, 2], .done 1 24 [1, 1, 0, 2]]) := rfl

theorem tagged_left (o : Nat) (s : List Nat) (r : Nat × List Nat) (A : Nat) (h : tagged.fresh o true s = .ok r)
    (hA : r.2[o]? = some A) : A = 1 := by
  unfold Dmrg.fresh at h
  split at h
  · rename_i ha hb
    have := (List.getElem?_eq_some_iff.1 hb).1
    cases h
    simp only [tagged, if_true] at hA
    rw [List.getElem?_set_ne (by omega), List.getElem?_set_self (by omega)] at hA
    cases hA; rfl
  · cases h

theorem tagged_right (o : Nat) (s : List Nat) (r : Nat × List Nat) (A : Nat) (h : tagged.fresh o false s = .ok r)
    (hA : r.2[o + 1]? = some A) : A = 2 := by
  unfold Dmrg.fresh at h
  split at h
  · rename_i ha hb
    have := (List.getElem?_eq_some_iff.1 hb).1
    cases h
    simp only [tagged] at hA
    rw [List.getElem?_set_self (by simp; omega)] at hA
    cases hA; rfl
  · cases h

theorem tagged_center (o : Nat) (s : List Nat) (r : Nat × List Nat) (A : Nat) (h : tagged.fresh o false s = .ok r)
    (hA : r.2[o]? = some A) : A ≠ 2 := by
  unfold Dmrg.fresh at h
  split at h
  · rename_i ha hb
    have := (List.getElem?_eq_some_iff.1 hb).1
    cases h
    simp only [tagged] at hA
    rw [List.getElem?_set_ne (by omega), List.getElem?_set_self (by omega)] at hA
    cases hA; simp
  · cases h

/-- `C51_partial` applies to a run from the right end. -/
example : ∃ e fin oc log, tagRun false 3 2 = .ok (e, fin, oc, log) ∧ Canon (· = 1) (· = 2) fin oc := by
  refine ⟨_, _, _, _, rfl, ?_⟩
  exact C51_partial false tagged 0 (fun _ _ => true) (fun _ => false) (fun s _ j => .error .ub) 100000 2
    [0, 0, 0, 0] 3 (by decide) (by decide) (by decide) _ _ _ _ rfl (fun _ => True) (· = 1) (· = 2) trivial
    (fun _ _ _ _ _ _ => trivial) (fun o s r A _ => tagged_left o s r A) (fun o s r A _ => tagged_right o s r A)
    (fun s i j s' o _ _ _ h => by cases h) (by decide) (by decide)

/-- `C51_fails` applies to the block flavour started at the left end: 0 is reported, the center is at 1. -/
example : ∃ e log, tagRun false 0 2 = .ok (e, [1, 0, 2, 2], 0, log) ∧ ¬ Canon (· = 1) (· = 2) [1, 0, 2, 2] 0 := by
  refine ⟨_, _, rfl, ?_⟩
  exact C51_fails false tagged 0 (fun _ _ => true) (fun _ => false) (fun s _ j => .ok ((s.set 1 2).set 0 0, j)) 100000 2
    [0, 0, 0, 0] 0 (by decide) _ _ _ _ rfl (fun _ => True) (· = 1) (· = 2) trivial
    (fun _ _ _ _ _ _ => trivial) (fun o s r A _ => tagged_center o s r A) (by decide) (by decide)

/-- **C51 fails** without any sweep too: with `maximum_iterations = 0` a state canonical around its last site comes back
unchanged but with the center reported one site to the left. -/
theorem C51_no_sweep_fails :
    dmrg false tagged 0 (fun _ _ => true) (fun _ => false) (fun s _ j => .ok (s, j)) 100000 0 4 [1, 1, 1, 0] 3
      = .ok (100000, [1, 1, 1, 0], 2, [.init, .done 0 100000 [1, 1, 1, 0]]) ∧
    Canon (· = 1) (· = 2) [1, 1, 1, 0] 3 ∧ ¬ Canon (· = 1) (· = 2) [1, 1, 1, 0] 2 := by
  refine ⟨rfl, ⟨?_, ?_⟩, ?_⟩
  · intro i A hA hi
    interval_cases i <;> simp at hA <;> exact hA.symm
  · intro i A hA hi
    have := (List.getElem?_eq_some_iff.1 hA).1
    simp at this; omega
  · intro h
    have := h.2 3 0 rfl (by decide)
    cases this

/-- **C52 fails** for the step number when the limit on iterations is reached: the last `it_log_all` gets 1, `end_log_all`
gets 2. -/
theorem C52_step_fails : ∃ e fin oc e1 s1 e2 s2, tagRun false 1 2 =
    .ok (e, fin, oc, [.init, .iteration 0 e1 s1, .iteration 1 e2 s2, .done 2 e fin]) := ⟨_, _, _, _, _, _, _, rfl⟩

end DM
end QuantiT
