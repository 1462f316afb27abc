import Verif.Model.CppLogger
import Verif.Props.PyLogger
/-
C119: loggers derived in C++.
-/
namespace QuantiT
namespace PY
open Spec DM
variable {S E En : Type}

theorem cppCall_leaf (defines : LogName → Bool) (depth : Nat) (c : LogCall S En) (h : baseBody c = []) :
    cppCall defines (depth + 1) c = .ok ([c].filter fun x => defines x.name) := by
  by_cases hd : defines c.name = true
  · simp [cppCall, hd]
  · simp only [cppCall, hd, h, List.mapM_nil]
    simp [hd]
    rfl

theorem cppCall_all (defines : LogName → Bool) (depth n : Nat) (e : En) (s : List S) :
    cppCall defines (depth + 2) (.logAll n e s) = .ok (documentedAll defines n e s) := by
  unfold documentedAll
  by_cases hd : defines .log_all = true
  · simp [cppCall, LogCall.name, hd]
  · rw [cppCall, if_neg (by simpa [LogCall.name] using hd), if_neg hd]
    simp only [baseBody, List.mapM_cons, List.mapM_nil, cppCall_leaf defines depth (.step n) rfl, cppCall_leaf defines depth (.energy e) rfl,
      cppCall_leaf defines depth (.bonds s) rfl]
    simp only [bind, Except.bind, pure, Except.pure, Except.map, List.flatten_cons, List.flatten_nil, List.append_nil]
    rw [← List.filter_append, ← List.filter_append]
    rfl

/-- **C119** in C++.  A logger derived from `dmrg_default_logger`, whatever methods it overrides, is told by every list of events, so by every run of
`dmrg`, exactly what the documentation says, with room for three nested calls. -/
theorem C119_cpp (defines : LogName → Bool) (depth : Nat) (log : List (Event S En)) :
    hearAll (hear (cppCall defines (depth + 3))) [] log = .ok (log.flatMap (documented defines)) := by
  rw [hearAll_calls _ (documented defines) log]
  · simp
  · intro ev _
    cases ev with
    | init =>
      rw [called, cppCall_leaf defines _ _ rfl, documented]
      by_cases hd : defines .init = true <;> simp [LogCall.name, hd]
    | iteration n e s =>
      by_cases hd : defines .it_log_all = true
      · simp [called, cppCall, LogCall.name, hd, documented]
      · rw [called, cppCall, if_neg (by simpa [LogCall.name] using hd), documented, if_neg hd]
        simp only [baseBody, List.mapM_cons, List.mapM_nil, cppCall_all]
        simp [bind, Except.bind, pure, Except.pure, Except.map]
    | done n e s =>
      by_cases hd : defines .end_log_all = true
      · simp [called, cppCall, LogCall.name, hd, documented]
      · rw [called, cppCall, if_neg (by simpa [LogCall.name] using hd), documented, if_neg hd]
        simp only [baseBody, List.mapM_cons, List.mapM_nil, cppCall_all]
        simp [bind, Except.bind, pure, Except.pure, Except.map]

/-- `dmrg_log_simple` (include/dmrg_logger.h:112-133), which overrides `log_step`, `log_bond_dims` and `it_log_all`: in a run with one sweep it is told
the sweep, and at the end the number of the step and the sites. -/
example (n : Nat) (e : En) (s : List S) :
    hearAll (hear (cppCall (fun m => decide (m = .log_step ∨ m = .log_bond_dims ∨ m = .it_log_all)) 3)) [] [.init, .iteration n e s, .done n e s]
      = .ok [.itAll n e s, .step n, .bonds s] := by
  rw [C119_cpp _ 0]
  rfl

end PY
end QuantiT
