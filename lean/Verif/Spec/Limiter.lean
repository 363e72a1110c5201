import Verif.Model.Limiter
/-!
Specification vocabulary for C29-C31: what the schedule says about each attempt, without looking at the counter.
-/
namespace Verif.Limiter

/-- An attempt that holds a slot. -/
def Phase.holds : Phase → Bool
  | .setup | .running => true
  | _ => false

/-- The number of attempts that hold a slot. -/
def holding (p : Pool) : Nat := p.phases.countP Phase.holds

/-- The number of attempts that were let in, counted over a list of phases. -/
def admitted (p : Pool) : Nat := p.phases.countP fun | .new | .refused => false | _ => true

/-- The number of attempts that have given their slot back. -/
def gone (p : Pool) : Nat := p.phases.countP fun | .failed | .ended => true | _ => false

end Verif.Limiter
