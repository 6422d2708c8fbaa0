import Verif.View.Whole
/-!
# What is counted (`src/metrics.rs`, `src/styles/stats.rs` and where they are used)

The same functions as in `Styling`, `Layout` and `Whole`, with the counters as part of the state; that they do the same is
proved in `View/Counting.lean`. Counters are lost here when an update fails.
-/
namespace Verif

/-- `metrics.rs` 3-10, 25-30 `ViewMetrics`, `CascadeMetrics`. -/
structure Metrics where
  updates : Nat := 0
  elementsShown : Nat := 0
  cascades : Nat := 0
  layouts : Nat := 0
  styles : Nat := 0
  matchesStatic : Nat := 0
  matchesDynamic : Nat := 0
  applyOk : Nat := 0
  applyError : Nat := 0
deriving DecidableEq, Repr

/-- `styles/stats.rs` 2-7 `CascadeStats`. -/
structure CascadeStats where
  matchesStatic : Nat := 0
  matchesDynamic : Nat := 0
  applyOk : Nat := 0
  applyError : Nat := 0
deriving DecidableEq, Repr

/-- `styles/mod.rs` 79-87: the rules that are gone through. -/
def CascadeStats.matched (c : CascadeStats) : List ElementStyle → CascadeStats
  | [] => c
  | .static _ :: rules => CascadeStats.matched { c with matchesStatic := c.matchesStatic + 1 } rules
  | .dynamic _ :: rules => CascadeStats.matched { c with matchesDynamic := c.matchesDynamic + 1 } rules

/-- `styles/mod.rs` 114-123: the properties that are applied. -/
def applyAllCounted (sizes : Sizes) : ComputedStyle → LayoutStyle × Element → CascadeStats → (LayoutStyle × Element) × CascadeStats
  | [], s, c => (s, c)
  | (d, v) :: l, s, c =>
    applyAllCounted sizes l (applyValue sizes d v s)
      (if (assignment sizes d.key v).2 then { c with applyOk := c.applyOk + 1 } else { c with applyError := c.applyError + 1 })

/-- `styles/mod.rs` 62-127 `Cascade::apply_styles` with the counters of the cascade; see `styleElement`. -/
def styleElementCounted (env : FrameEnv) (t : Tree) (n : NodeId) (parent : Element) (sizes : Sizes) (vars : Variables)
    (layout : LayoutStyle) (e : Element) : Except Trouble (((LayoutStyle × Element) × Variables) × CascadeStats) :=
  let e := parent.inherit e.reset
  match applied env.checks viewPseudo t n (env.rules n) with
  | .error _ => .error .panic
  | .ok rules =>
    let stats := CascadeStats.matched {} (env.rules n)
    match computeBlocks env.fuel (elementBlocks rules e.style) vars [] with
    | none => .error .endless
    | some (vars, style) =>
      match playAnimators env n vars 0 e.animators style with
      | .error t => .error t
      | .ok (animators, style) =>
        match playTransitions env.fuel env.time e.transitions style with
        | .error t => .error t
        | .ok (transitions, style) =>
          let s := applyAllCounted sizes (env.order.style n style) (layout, { e with animators := animators, transitions := transitions }) stats
          .ok (((s.1.1, { s.1.2 with transitions := s.1.2.transitions.map fun t => t.init style }), vars), s.2)

/-- `view.rs` 384-399: what is counted for an element that was styled. -/
def Metrics.cascaded (m : Metrics) (rules : Nat) (c : CascadeStats) (changed : Bool) : Metrics :=
  { m with
    cascades := m.cascades + 1
    styles := rules
    matchesStatic := m.matchesStatic + c.matchesStatic
    matchesDynamic := m.matchesDynamic + c.matchesDynamic
    applyOk := m.applyOk + c.applyOk
    applyError := m.applyError + c.applyError
    layouts := if changed then m.layouts + 1 else m.layouts }

/-- `view.rs` 357-437 `apply_styles` with the counters; `rules` is the number of rules of the stylesheet. -/
def styleTreeCounted (rules : Nat) (env : FrameEnv) : Nat → NodeId → Sizes → Variables → Styled × Metrics → Except Trouble (Styled × Metrics)
  | 0, _, _, _, _ => .error .endless
  | depth + 1, n, sizes, vars, (s, m) =>
    match (s.tree.par n).bind s.tree.ctx, s.tree.ctx n with
    | some parent, some e =>
      if e.text.isSome then .ok (s.put n (s.layouts n) (parent.inherit e), m)
      else
        match styleElementCounted env s.tree n parent sizes vars (s.layouts n) e with
        | .error t => .error t
        | .ok (((l, e'), vars'), stats) =>
          let m := m.cascaded rules stats (s.layouts n != l)
          if e'.tag ∈ leafTags then .ok (s.put n l e', m)
          else forEach (fun s c => styleTreeCounted rules env depth c (sizes.under e') vars' s) (s.tree.kids n) (s.put n l e', m)
    | _, _ => .error .error

/-- `view.rs` 145-173 `compute_final_positions_and_clipping` with the counters. -/
def placeTreeCounted (boxes : NodeId → Layout) : Nat → NodeId → Rat × Rat → Rat → Option Layout → Tree × Metrics → Except Trouble (Tree × Metrics)
  | 0, _, _, _, _, _ => .error .endless
  | depth + 1, n, location, opacity, clipping, (t, m) =>
    let layout := { boxes n with x := (boxes n).x + location.1, y := (boxes n).y + location.2 }
    match t.ctx n with
    | none => .error .error
    | some e =>
      let m := { m with elementsShown := m.elementsShown + 1 }
      let e := e.placed layout opacity clipping
      let (location, clipping) := e.inner layout clipping
      forEach (fun t c => placeTreeCounted boxes depth c location e.opacity clipping t) (t.kids n) (t.setCtx n e, m)

/-- `view.rs` 109-143 `update` with the counters. -/
def App.updateCounted (p : Platform) (fuel : Nat) (order : FrameOrder) (a : App) (input : Input) (value : Json) (m : Metrics) :
    Except Halt ((App × Output) × Metrics) :=
  let m := { m with updates := m.updates + 1 }
  match a.screen.view.update p.inline value with
  | .error f => .error f.halt
  | .ok v =>
    let layouts := upd a.layouts v.root (resizeRoot input.viewport (a.layouts v.root))
    match styleTreeCounted a.css.styles.length (a.env p fuel order input.time) fuel v.body ⟨16, 16, ⟨0, 0, 0, 0⟩, input.viewport.1, input.viewport.2⟩
        (fun _ => none) (⟨v.stage.tree, layouts⟩, m) with
    | .error t => .error t.halt
    | .ok (styled, m) =>
      match placeTreeCounted (p.solve (styled.recall order.recall)) fuel v.body (0, 0) 1 none (styled.tree, m) with
      | .error t => .error t.halt
      | .ok (tree, m) =>
        match handleOutput v.emitter v.body input.events (tree, a.screen.ui) with
        | .error f => .error f.halt
        | .ok ((tree, ui), out) =>
          .ok ((⟨⟨{ v with stage := { v.stage with tree := tree } }, ui⟩, a.css, a.kept, styled.layouts⟩, out), m)

/-- Updates one after the other, with the counters. -/
def App.runCounted (p : Platform) (fuel : Nat) (a : App) : List Frame → Metrics → Except Halt ((App × List Output) × Metrics)
  | [], m => .ok ((a, []), m)
  | f :: fs, m =>
    match a.updateCounted p fuel f.order f.input f.value m with
    | .error h => .error h
    | .ok ((a, out), m) =>
      match a.runCounted p fuel fs m with
      | .error h => .error h
      | .ok ((a, outs), m) => .ok ((a, out :: outs), m)

end Verif
