import Verif.Input.Builder
/-!
# Specification vocabulary for C103: what a chain of calls asks for
-/
namespace Verif

/-- The events of the calls that add one. -/
def addedEvents : List InputCall → List InputEvent
  | [] => []
  | .event e :: cs => e :: addedEvents cs
  | _ :: cs => addedEvents cs

/-- No call of the kind. -/
def NoTime (cs : List InputCall) : Prop := ∀ t, .time t ∉ cs
def NoViewport (cs : List InputCall) : Prop := ∀ v, .viewport v ∉ cs
def NoEvents (cs : List InputCall) : Prop := ∀ es, .events es ∉ cs

end Verif
