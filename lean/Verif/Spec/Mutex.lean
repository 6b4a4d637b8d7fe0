import Verif.Model.Mutex
/-! Specification of the mutex. -/
namespace Verif.Mutex

/-- The thread is between a successful `lock`/`try_lock` and the point where `unlock` gives the mutex
back. -/
def Inside : Pc → Prop
  | .holds => True
  | .unlockCas _ => True
  | _ => False

instance (p : Pc) : Decidable (Inside p) := by cases p <;> unfold Inside <;> infer_instance

end Verif.Mutex
