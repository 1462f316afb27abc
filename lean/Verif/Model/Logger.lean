import Verif.Base
import Verif.Spec.Dmrg
/-
Model of the loggers of include/dmrg_logger.h.  A chain is the list of its tensors, `ends A` are `A.sizes()[0]` and `A.sizes()[2]`.  The energy is
ignored by all of them (dmrg_logger.h:104-105, 145-146).  What `dmrg` tells a logger is the list of `Event`s of Model/Dmrg.lean.
-/
namespace QuantiT
namespace DM
open Spec
variable {S En K : Type}

/-- `log_bond_impl`/`log_bond_dims`, dmrg_logger.h:123-128, 155-164: the larger bond of the site in the middle.  `operator[]` of a chain without
tensors is undefined behaviour. -/
def middleBond (ends : S → Nat × Nat) (sites : List S) : Res Nat :=
  match sites[sites.length / 2]? with
  | none => Res.ub
  | some A => .ok (max (ends A).1 (ends A).2)

/-- `dmrg_log_simple`, dmrg_logger.h:110-115.  The members have no initial value: `none`. -/
structure LogSimple where
  itNum : Option Nat
  middle : Option Nat

/-- What `dmrg_log_simple` does when it hears an event, dmrg_logger.h:46, 59-70, 85-95, 116-120: the iterations are ignored and the end is
passed to `log_all`. -/
def LogSimple.hear (ends : S → Nat × Nat) (l : LogSimple) : Event S En → Res LogSimple
  | .init => .ok l
  | .iteration _ _ _ => .ok l
  | .done n _ sites => do
    let m ← middleBond ends sites
    .ok ⟨some n, some m⟩

/-- `dmrg_log_sweeptime`, dmrg_logger.h:130-138.  `ticks` is the number of times the clock was read; it is not a member in the code. -/
structure LogSweeps (K : Type) where
  itNum : Option Nat
  middle : Option Nat
  last : Option K
  times : List K
  bonds : List Nat
  ticks : Nat

/-- What `dmrg_log_sweeptime` does when it hears an event, dmrg_logger.h:85-95, 140-188.  `clock k` is the value of the clock the `k`-th time it
is read, in seconds.  Writing past the end of the lists is undefined behaviour, and so is the difference with a time that was never taken
(dmrg_logger.h:168, before `init`; there the code would use a time point of zero). -/
def LogSweeps.hear [Sub K] [Zero K] (ends : S → Nat × Nat) (clock : Nat → K) (maxIt : Nat) (l : LogSweeps K) : Event S En → Res (LogSweeps K)
  | .init => .ok { l with last := some (clock l.ticks), times := List.replicate maxIt 0, bonds := List.replicate maxIt 0, ticks := l.ticks + 1 }
  | .iteration n _ sites =>
    match l.last with
    | none => Res.ub
    | some t => do
      let m ← middleBond ends sites
      if n < l.bonds.length ∧ n < l.times.length then
        .ok { l with itNum := some n, middle := some m, last := some (clock l.ticks), bonds := l.bonds.set n m,
                     times := l.times.set n (clock l.ticks - t), ticks := l.ticks + 1 }
      else Res.ub
  | .done n _ sites => do
    let m ← middleBond ends sites
    .ok { l with itNum := some n, middle := some m }

/-- A logger that hears a list of events. -/
def hearAll {L : Type} (hear : L → Event S En → Res L) : L → List (Event S En) → Res L
  | l, [] => .ok l
  | l, e :: es => do
    let l' ← hear l e
    hearAll hear l' es

end DM
end QuantiT
