import Verif.Model.PyLogger
import Verif.Props.Dmrg
import Verif.Props.Logger
/-
C119: loggers derived in Python.
-/
namespace QuantiT
namespace PY
open Spec DM
variable {S E En : Type}

/-- `end_log_all` of a class that does not define it never returns. -/
theorem no_return (defines : LogName → Bool) (he : defines .end_log_all = false) (depth n : Nat) (e : En) (s : List S) :
    virtualCall defines depth (LogCall.logAll n e s) = Res.ub := by
  induction depth with
  | zero => rfl
  | succ depth ih =>
    simp only [virtualCall, trampoline, LogCall.name, he, baseBody, List.mapM_cons, ih]
    rfl

theorem no_return_end (defines : LogName → Bool) (he : defines .end_log_all = false) (depth n : Nat) (e : En) (s : List S) :
    virtualCall defines depth (LogCall.endAll n e s) = Res.ub := by
  cases depth with
  | zero => rfl
  | succ depth =>
    simp only [virtualCall, trampoline, LogCall.name, he, baseBody, List.mapM_cons, no_return defines he]
    rfl

theorem no_return_it (defines : LogName → Bool) (hi : defines .it_log_all = false) (he : defines .end_log_all = false) (depth n : Nat) (e : En)
    (s : List S) : virtualCall defines depth (LogCall.itAll n e s) = Res.ub := by
  cases depth with
  | zero => rfl
  | succ depth =>
    simp only [virtualCall, trampoline, LogCall.name, hi, baseBody, List.mapM_cons, no_return defines he]
    rfl

theorem call_init (defines : LogName → Bool) (depth : Nat) :
    virtualCall defines (depth + 1) (LogCall.init (S := S) (En := En)) = .ok (if defines .init then [.init] else []) := by
  by_cases h : defines .init = true
  · simp only [virtualCall, trampoline, LogCall.name, h, if_true]
  · simp only [virtualCall, trampoline, LogCall.name, h, baseBody, List.mapM_nil]
    rfl

/-- Hearing events that each lead to known calls. -/
theorem hearAll_calls (call : LogCall S En → Res (List (LogCall S En))) (g : Event S En → List (LogCall S En)) (log : List (Event S En))
    (h : ∀ ev ∈ log, call (called ev) = .ok (g ev)) (l : List (LogCall S En)) :
    hearAll (hear call) l log = .ok (l ++ log.flatMap g) := by
  induction log generalizing l with
  | nil => simp [hearAll]
  | cons ev log ih =>
    simp only [hearAll, hear, bind, Except.bind, h ev (by simp)]
    rw [ih (fun x hx => h x (by simp [hx]))]
    simp

/-- **C119** (partial: the class must define both `it_log_all` and `end_log_all`).  Such a class, with any other methods, is told by every list of
events, so by every run of `dmrg`, exactly what the documentation says, with room for two nested calls. -/
theorem C119_both_partial (defines : LogName → Bool) (hi : defines .it_log_all = true) (he : defines .end_log_all = true) (depth : Nat)
    (log : List (Event S En)) : told defines (depth + 1) log = .ok (log.flatMap (documented defines)) := by
  unfold told
  rw [hearAll_calls _ (documented defines) log]
  · simp
  · intro ev _
    cases ev with
    | init => exact call_init defines depth
    | iteration n e s => simp only [called, virtualCall, trampoline, LogCall.name, documented, hi, if_true]
    | done n e s => simp only [called, virtualCall, trampoline, LogCall.name, documented, he, if_true]

/-- **C119**, `dmrg_logger` itself, and the default of the argument: every run is heard and nothing is told, with room for three nested calls. -/
theorem C119_plain (depth : Nat) (log : List (Event S En)) : hearAll (hear (plainCall (depth + 3))) [] log = .ok [] := by
  rw [hearAll_calls _ (fun _ => []) log]
  · simp
  · intro ev _
    cases ev <;> rfl

/-- **C119 fails** for every class that does not define `end_log_all`, whatever else it defines: whatever the room for nested calls, no run of
`dmrg` that would have returned does. -/
theorem C119_end_fails (dense : Bool) (d : Dmrg S E En) (dflt : E) (above : En → En → Bool)
    (zeroNorm : List S → Bool) (moveOc : List S → Nat → Nat → Res (List S × Nat)) (e0 : En) (maxIt : Nat)
    (sites : List S) (oc : Nat) (h2 : 2 ≤ sites.length) (ho : oc < sites.length) (hsm : sites.length < 2 ^ 63)
    (e : En) (fin : List S) (oc' : Nat) (log : List (Event S En))
    (hr : dmrg dense d dflt above zeroNorm moveOc e0 maxIt sites.length sites oc = .ok (e, fin, oc', log))
    (defines : LogName → Bool) (he : defines .end_log_all = false) (depth : Nat) : told defines depth log = Res.ub := by
  obtain ⟨h, conv, last, -, -, hlog, -, -⟩ := C52_log_partial dense d dflt above zeroNorm moveOc e0 maxIt sites oc h2 ho hsm e fin oc' log hr
  have key : ∀ (a : List (Event S En)) (l : List (LogCall S En)),
      hearAll (hear (virtualCall defines depth)) l (a ++ [.done last e fin]) = Res.ub := by
    intro a
    induction a with
    | nil =>
      intro l
      simp only [List.nil_append, hearAll, hear, called, bind, Except.bind, no_return_end defines he]
      rfl
    | cons ev a ih =>
      intro l
      simp only [List.cons_append, hearAll, hear, bind, Except.bind]
      cases hc : virtualCall defines depth (called ev) with
      | error x =>
        have hx : x = Fault.ub := by
          cases depth with
          | zero => cases hc; rfl
          | succ depth =>
            cases ev with
            | init =>
              rw [called, call_init] at hc
              cases hc
            | iteration n e' s =>
              by_cases hi : defines .it_log_all = true
              · simp only [called, virtualCall, trampoline, LogCall.name, hi, if_true] at hc
                cases hc
              · rw [called, no_return_it defines (by simpa using hi) he] at hc
                cases hc
                rfl
            | done n e' s =>
              rw [called, no_return_end defines he] at hc
              cases hc
              rfl
        rw [hx]
        rfl
      | ok cs => exact ih _
  unfold told
  rw [hlog]
  exact key _ _

/-- **C119 fails** for a class that defines `end_log_all` and not `it_log_all`: `end_log_all` is called for every sweep as well, and is the only method
of a logger called during a run besides `init`. -/
theorem C119_sweep_fails (dense : Bool) (d : Dmrg S E En) (dflt : E) (above : En → En → Bool)
    (zeroNorm : List S → Bool) (moveOc : List S → Nat → Nat → Res (List S × Nat)) (e0 : En) (maxIt : Nat)
    (sites : List S) (oc : Nat) (h2 : 2 ≤ sites.length) (ho : oc < sites.length) (hsm : sites.length < 2 ^ 63)
    (e : En) (fin : List S) (oc' : Nat) (log : List (Event S En))
    (hr : dmrg dense d dflt above zeroNorm moveOc e0 maxIt sites.length sites oc = .ok (e, fin, oc', log))
    (defines : LogName → Bool) (hi : defines .it_log_all = false) (he : defines .end_log_all = true) (depth : Nat) :
    ∃ (h : List (En × List S)) (conv : Bool) (last : Nat),
      History d above sites.length (startPair sites.length oc) maxIt e0 sites h conv ∧
      told defines (depth + 2) log =
        .ok ((if defines .init then [.init] else []) ++ (h.drop 1).zipIdx.map (fun p => .endAll p.2 p.1.1 p.1.2) ++ [.endAll last e fin]) := by
  obtain ⟨h, conv, last, hh, -, hlog, -, -⟩ := C52_log_partial dense d dflt above zeroNorm moveOc e0 maxIt sites oc h2 ho hsm e fin oc' log hr
  refine ⟨h, conv, last, hh, ?_⟩
  unfold told
  rw [hearAll_calls _ (fun ev => match ev with
    | .init => if defines .init then [.init] else []
    | .iteration n e s => [.endAll n e s]
    | .done n e s => [.endAll n e s]) log]
  · rw [hlog]
    simp only [List.flatMap_append, List.flatMap_cons, List.flatMap_nil, List.append_nil, List.flatMap_map, List.nil_append]
    congr 2
    rw [← List.map_eq_flatMap]
  · intro ev _
    cases ev with
    | init => exact call_init defines (depth + 1)
    | iteration n e s =>
      simp only [called, virtualCall, trampoline, LogCall.name, hi, he, baseBody, List.mapM_cons, List.mapM_nil]
      rfl
    | done n e s => simp only [called, virtualCall, trampoline, LogCall.name, he, if_true]

/-- **C119 fails** for the methods `log_all`, `log_step`, `log_energy` and `log_bond_dims`: those of a class derived in Python are never called during a
run, whatever the class. -/
theorem C119_never_called_fails (defines : LogName → Bool) (depth : Nat) (log : List (Event S En)) (cs : List (LogCall S En))
    (h : told defines depth log = .ok cs) (c : LogCall S En) (hc : c ∈ cs) : c.name = .init ∨ c.name = .it_log_all ∨ c.name = .end_log_all := by
  have call : ∀ (ev : Event S En) (cs : List (LogCall S En)), virtualCall defines depth (called ev) = .ok cs →
      ∀ c ∈ cs, c.name = .init ∨ c.name = .it_log_all ∨ c.name = .end_log_all := by
    intro ev cs h c hc
    cases depth with
    | zero => cases h
    | succ depth =>
      cases ev with
      | init =>
        rw [called, call_init] at h
        cases h
        split at hc
        · simp only [List.mem_singleton] at hc
          subst hc
          exact .inl rfl
        · simp at hc
      | iteration n e s =>
        by_cases hi : defines .it_log_all = true
        · simp only [called, virtualCall, trampoline, LogCall.name, hi, if_true] at h
          cases h
          simp only [List.mem_singleton] at hc
          subst hc
          exact .inr (.inl rfl)
        · by_cases he : defines .end_log_all = true
          · cases depth with
            | zero =>
              simp only [called, virtualCall, trampoline, LogCall.name, hi, baseBody, List.mapM_cons] at h
              cases h
            | succ depth =>
              simp only [called, virtualCall, trampoline, LogCall.name, hi, he, baseBody, List.mapM_cons, List.mapM_nil] at h
              cases h
              simp only [List.flatten_cons, List.flatten_nil, List.append_nil, List.mem_singleton] at hc
              subst hc
              exact .inr (.inr rfl)
          · rw [called, no_return_it defines (by simpa using hi) (by simpa using he)] at h
            cases h
      | done n e s =>
        by_cases he : defines .end_log_all = true
        · simp only [called, virtualCall, trampoline, LogCall.name, he, if_true] at h
          cases h
          simp only [List.mem_singleton] at hc
          subst hc
          exact .inr (.inr rfl)
        · rw [called, no_return_end defines (by simpa using he)] at h
          cases h
  have key : ∀ (log : List (Event S En)) (l r : List (LogCall S En)), hearAll (hear (virtualCall defines depth)) l log = .ok r →
      ∀ c ∈ r, c ∈ l ∨ c.name = .init ∨ c.name = .it_log_all ∨ c.name = .end_log_all := by
    intro log
    induction log with
    | nil =>
      intro l r h c hc
      cases h
      exact .inl hc
    | cons ev log ih =>
      intro l r h c hc
      simp only [hearAll, hear, bind, Except.bind] at h
      cases hv : virtualCall defines depth (called ev) with
      | error x => rw [hv] at h; cases h
      | ok cs =>
        rw [hv] at h
        rcases ih _ _ h c hc with h' | h'
        · rcases List.mem_append.1 h' with h' | h'
          · exact .inl h'
          · exact .inr (call ev cs hv c h')
        · exact .inr h'
  rcases key log [] cs h c hc with h' | h'
  · simp at h'
  · exact h'

/-! ### Examples

A run of two sweeps, of `C52_step_fails`. -/

/-- A class that defines the two methods hears the two sweeps and the end; the documentation says the same. -/
example : ∃ e fin oc e1 s1 e2 s2 log, tagRun false 1 2 = .ok (e, fin, oc, log) ∧
    told (fun m => m == .it_log_all || m == .end_log_all) 1 log = .ok [.itAll 0 e1 s1, .itAll 1 e2 s2, .endAll 2 e fin] :=
  ⟨_, _, _, _, _, _, _, _, rfl, rfl⟩

/-- A class that defines `log_energy`, the first thing to do with a logger: the documentation promises three calls; the process is killed whatever
the room on the stack. -/
example (depth : Nat) : ∃ e fin oc e1 e2 log, tagRun false 1 2 = .ok (e, fin, oc, log) ∧
    log.flatMap (documented fun m => m == .log_energy) = [.energy e1, .energy e2, .energy e] ∧
    told (fun m => m == .log_energy) depth log = Res.ub := by
  have key : ∀ x, tagRun false 1 2 = .ok x → told (fun m => m == .log_energy) depth x.2.2.2 = Res.ub := fun x hx =>
    C119_end_fails false tagged 0 (fun _ _ => true) (fun _ => false) (fun s _ j => .ok ((s.set 1 2).set 0 0, j)) 100000 2
      [0, 0, 0, 0] 1 (by decide) (by decide) (by decide) x.1 x.2.1 x.2.2.1 x.2.2.2 hx _ rfl _
  exact ⟨_, _, _, _, _, _, rfl, rfl, key _ rfl⟩

/-- A class that defines `end_log_all`: the documentation promises one call, there are three. -/
example : ∃ e fin oc e1 s1 e2 s2 log, tagRun false 1 2 = .ok (e, fin, oc, log) ∧
    log.flatMap (documented fun m => m == .end_log_all) = [.endAll 2 e fin] ∧
    told (fun m => m == .end_log_all) 2 log = .ok [.endAll 0 e1 s1, .endAll 1 e2 s2, .endAll 2 e fin] :=
  ⟨_, _, _, _, _, _, _, _, rfl, rfl, rfl⟩

end PY
end QuantiT
