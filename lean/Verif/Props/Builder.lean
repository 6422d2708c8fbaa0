import Verif.Spec.Builder
/-!
# C103: an input is what was asked for
-/
namespace Verif

theorem call_time (cs : List InputCall) (h : NoTime cs) (i : Input) : (cs.foldl Input.call i).time = i.time := by
  induction cs generalizing i with
  | nil => rfl
  | cons c cs ih =>
    rw [List.foldl_cons, ih (fun t ht => h t (List.mem_cons_of_mem _ ht))]
    cases c <;> first | rfl | exact absurd List.mem_cons_self (h _)

theorem call_viewport (cs : List InputCall) (h : NoViewport cs) (i : Input) : (cs.foldl Input.call i).viewport = i.viewport := by
  induction cs generalizing i with
  | nil => rfl
  | cons c cs ih =>
    rw [List.foldl_cons, ih (fun t ht => h t (List.mem_cons_of_mem _ ht))]
    cases c <;> first | rfl | exact absurd List.mem_cons_self (h _)

theorem call_events (cs : List InputCall) (h : NoEvents cs) (i : Input) : (cs.foldl Input.call i).events = i.events ++ addedEvents cs := by
  induction cs generalizing i with
  | nil => simp [addedEvents]
  | cons c cs ih =>
    rw [List.foldl_cons, ih (fun t ht => h t (List.mem_cons_of_mem _ ht))]
    cases c <;> first | rfl | exact absurd List.mem_cons_self (h _) | simp [Input.call, addedEvents]

/-- **C103.** However an input is built, its time is the last one given (or 0), its viewport the last one given (or 800 by 600),
and its events are the last list given (or none) followed by every single event given after that, in the order of the calls. -/
theorem C103_input_as_built (before after : List InputCall) :
    (∀ t, NoTime after → (Input.built (before ++ .time t :: after)).time = t) ∧ (NoTime after → (Input.built after).time = 0) ∧
    (∀ v, NoViewport after → (Input.built (before ++ .viewport v :: after)).viewport = v) ∧ (NoViewport after → (Input.built after).viewport = (800, 600)) ∧
    (∀ es, NoEvents after → (Input.built (before ++ .events es :: after)).events = es ++ addedEvents after) ∧
    (NoEvents after → (Input.built after).events = addedEvents after) := by
  unfold Input.built
  refine ⟨fun t h => ?_, fun h => call_time _ h _, fun v h => ?_, fun h => call_viewport _ h _, fun es h => ?_, fun h => (call_events _ h _).trans (List.nil_append _)⟩
  · rw [List.foldl_append, List.foldl_cons, call_time _ h]; rfl
  · rw [List.foldl_append, List.foldl_cons, call_viewport _ h]; rfl
  · rw [List.foldl_append, List.foldl_cons, call_events _ h]; rfl

/-- A chain with all calls, some of them twice. -/
theorem C103_example : (Input.built [.event .unknown, .time 1, .events [.char 'a'], .viewport (5, 6), .event (.char 'b'), .time 2, .event (.char 'c')]) =
    { time := 2, viewport := (5, 6), events := [.char 'a', .char 'b', .char 'c'] } ∧
    NoEvents [.viewport (5, 6), .event (.char 'b'), .time 2, .event (.char 'c')] := by
  refine ⟨rfl, ?_⟩
  intro es h
  simp at h

end Verif
