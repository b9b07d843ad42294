import Verif.Model.Trace

/-!
# Specification of calls without undefined behaviour (C56)
-/

namespace Stats.Spec

/-- The call returns `a`: it ends, and no operation on the way is undefined. -/
def Defined {α : Type} (o : Out α) (a : α) : Prop := ∃ work depth, o = .ret a work depth

end Stats.Spec
