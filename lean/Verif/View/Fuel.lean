import Verif.View.Whole
import Verif.View.Halts
import Verif.Css.AnimationLemmas
import Verif.Css.ComputeLemmas
import Verif.Peg.Lemmas
/-!
# More fuel does not change a result

The fuel of the model stands for time and stack. A call that ends (with a result, an error or a panic) ends the same way
with any larger amount.
-/
namespace Verif

/-- `y`, obtained with more fuel, agrees with `x` unless the fuel of `x` did not suffice. -/
def Extends {α : Type} (x y : Except Trouble α) : Prop := x ≠ .error .endless → y = x

theorem Extends.refl {α : Type} (x : Except Trouble α) : Extends x x := fun _ => rfl

theorem Extends.bind {α β : Type} {x y : Except Trouble α} {f g : α → Except Trouble β} (h : Extends x y) (hf : ∀ a, Extends (f a) (g a)) :
    Extends (match (generalizing := false) x with | .error e => .error e | .ok a => f a)
      (match (generalizing := false) y with | .error e => .error e | .ok a => g a) := by
  cases x with
  | error e =>
    intro hne
    rw [h (fun he => hne (by rw [he]))]
  | ok a =>
    rw [h (fun he => by cases he)]
    exact hf a

section computing
variable {fuel fuel' : Nat} (hf : fuel ≤ fuel')
include hf

theorem computeStyle_mono {vars key index definition style r} (h : computeStyle vars fuel key index definition style = some r) :
    computeStyle vars fuel' key index definition style = some r := by
  unfold computeStyle at h ⊢
  cases hc : computeShorthand vars fuel definition with
  | none => rw [hc] at h; cases h
  | some vs => rw [hc] at h; rw [computeShorthand_mono hf hc]; exact h

theorem computeValues_mono {vars key} (values : List Shorthand) : ∀ {index style r}, computeValues vars fuel key index values style = some r →
    computeValues vars fuel' key index values style = some r := by
  induction values with
  | nil => intro _ _ _ h; exact h
  | cons v vs ih =>
    intro index style r h
    simp only [computeValues] at h ⊢
    cases hc : computeStyle vars fuel key index v style with
    | none => rw [hc] at h; cases h
    | some s => rw [hc] at h; rw [computeStyle_mono hf hc]; exact ih h

theorem computeBlock_mono (block : List Declaration) : ∀ {vars style r}, computeBlock fuel block vars style = some r →
    computeBlock fuel' block vars style = some r := by
  induction block with
  | nil => intro _ _ _ h; exact h
  | cons d block ih =>
    intro vars style r h
    cases d with
    | «variable» key sh => exact ih (vars := vars.set key sh) h
    | property key values =>
      simp only [computeBlock] at h ⊢
      cases hc : computeValues vars fuel key 0 values style with
      | none => rw [hc] at h; cases h
      | some s => rw [hc] at h; rw [computeValues_mono hf values hc]; exact ih h

theorem computeBlocks_mono (blocks : List (List Declaration)) : ∀ {vars style r}, computeBlocks fuel blocks vars style = some r →
    computeBlocks fuel' blocks vars style = some r := by
  induction blocks with
  | nil => intro _ _ _ h; exact h
  | cons b bs ih =>
    intro vars style r h
    simp only [computeBlocks] at h ⊢
    cases hc : computeBlock fuel b vars style with
    | none => rw [hc] at h; cases h
    | some s => rw [hc] at h; rw [computeBlock_mono hf b hc]; exact ih h

theorem keyframeStyle_mono {vars} (block : List Declaration) : ∀ {style r}, keyframeStyle vars fuel block style = some r →
    keyframeStyle vars fuel' block style = some r := by
  induction block with
  | nil => intro _ _ h; exact h
  | cons d block ih =>
    intro style r h
    cases d with
    | «variable» key sh => exact ih (style := style) h
    | property key values =>
      simp only [keyframeStyle] at h ⊢
      cases hc : computeValues vars fuel key 0 values style with
      | none => rw [hc] at h; cases h
      | some s => rw [hc] at h; rw [computeValues_mono hf values hc]; exact ih h

theorem keyframeStyles_mono {vars} (ks : List Keyframe) : ∀ {styles animated r}, keyframeStyles vars fuel ks styles animated = some r →
    keyframeStyles vars fuel' ks styles animated = some r := by
  induction ks with
  | nil => intro _ _ _ h; exact h
  | cons k ks ih =>
    intro styles animated r h
    simp only [keyframeStyles] at h ⊢
    cases hc : keyframeStyle vars fuel k.declaration [] with
    | none => rw [hc] at h; cases h
    | some s => rw [hc] at h; rw [keyframeStyle_mono hf _ hc]; exact ih h

theorem computeTracks_mono {vars animation style r} (h : computeTracks vars fuel animation style = some r) :
    computeTracks vars fuel' animation style = some r := by
  unfold computeTracks at h ⊢
  cases hc : keyframeStyles vars fuel animation.keyframes [] [] with
  | none => rw [hc] at h; cases h
  | some s => rw [hc] at h; rw [keyframeStyles_mono hf _ hc]; exact h

theorem wrapTime_extends (d t : Rat) : Extends (wrapTime d fuel t) (wrapTime d fuel' t) := by
  induction fuel generalizing t fuel' with
  | zero => intro h; exact absurd rfl h
  | succ n ih =>
    obtain ⟨m, rfl⟩ : ∃ m, fuel' = m + 1 := ⟨fuel' - 1, by omega⟩
    simp only [wrapTime]
    split
    · exact ih (by omega) _
    · exact .refl _

theorem animatorUpdate_extends (a : Animator) (time : Rat) : Extends (a.update fuel time) (a.update fuel' time) := by
  unfold Animator.update
  generalize (if a.running ∧ a.duration > 0 then { a with time := a.time + time } else a) = b
  dsimp only
  by_cases hb : b.time - b.delay < 0
  · rw [if_pos hb, if_pos hb]; exact .refl _
  · rw [if_neg hb, if_neg hb]
    intro hne
    rw [wrapTime_extends hf _ _ (fun he => hne (by rw [he]))]

theorem animatorPlay_extends (a : Animator) (time : Rat) (tracks : List Track) (style : ComputedStyle) :
    Extends (a.play fuel time tracks style) (a.play fuel' time tracks style) := by
  unfold Animator.play
  intro hne
  rw [animatorUpdate_extends hf a time (fun he => hne (by rw [he]))]

theorem transitionLoop_extends (key : PropertyKey) (p : Progress) (index : Nat) (t : Transition) (style : ComputedStyle) :
    Extends (Transition.loop key p fuel index t style) (Transition.loop key p fuel' index t style) := by
  induction fuel generalizing index t style fuel' with
  | zero => intro h; exact absurd rfl h
  | succ n ih =>
    obtain ⟨m, rfl⟩ : ∃ m, fuel' = m + 1 := ⟨fuel' - 1, by omega⟩
    simp only [Transition.loop]
    split
    · exact .refl _
    · split
      · exact ih (by omega) _ _ _
      · split
        · exact .refl _
        · exact ih (by omega) _ _ _

theorem transitionPlay_extends (t : Transition) (time : Rat) (style : ComputedStyle) : Extends (t.play fuel time style) (t.play fuel' time style) := by
  unfold Transition.play
  split
  · exact .refl _
  · intro hne
    rw [animatorUpdate_extends hf t.animator time (fun he => hne (by rw [he]))]
    revert hne
    cases hu : t.animator.update fuel time with
    | error e => intro _; rfl
    | ok r =>
      rcases r with ⟨a, _ | p⟩
      · intro _; rfl
      · intro hne
        exact transitionLoop_extends hf _ _ _ _ _ hne

theorem playTransitions_extends (time : Rat) (ts : List Transition) : ∀ style, Extends (playTransitions fuel time ts style) (playTransitions fuel' time ts style) := by
  induction ts with
  | nil => intro style; exact .refl _
  | cons t ts ih =>
    intro style
    simp only [playTransitions]
    intro hne
    rw [transitionPlay_extends hf t time style (fun he => hne (by rw [he]))]
    cases ht : t.play fuel time style with
    | error e => rfl
    | ok r =>
      rw [ht] at hne
      dsimp only at hne ⊢
      rw [ih r.2 (fun he => hne (by rw [he]))]

theorem playAnimators_extends (env : FrameEnv) (n : NodeId) (vars : Variables) (as : List Animator) : ∀ i style,
    Extends (playAnimators { env with fuel := fuel } n vars i as style) (playAnimators { env with fuel := fuel' } n vars i as style) := by
  induction as with
  | nil => intro i style; exact .refl _
  | cons a as ih =>
    intro i style
    simp only [playAnimators]
    split
    · intro hne
      rw [ih _ _ (fun he => hne (by rw [he]))]
    · rename_i animation _
      intro hne
      cases hc : computeTracks vars fuel animation style with
      | none => rw [hc] at hne; exact absurd rfl hne
      | some tracks =>
        rw [hc] at hne
        rw [computeTracks_mono hf hc]
        dsimp only at hne ⊢
        rw [animatorPlay_extends hf a _ _ _ (fun he => hne (by rw [he]))]
        cases ha : a.play fuel env.time (env.order.tracks n i tracks) style with
        | error e => rfl
        | ok r =>
          rw [ha] at hne
          dsimp only at hne ⊢
          rw [ih _ _ (fun he => hne (by rw [he]))]

theorem styleElement_extends (env : FrameEnv) (t : Tree) (n : NodeId) (parent : Element) (sizes : Sizes) (vars : Variables) (layout : LayoutStyle) (e : Element) :
    Extends (styleElement { env with fuel := fuel } t n parent sizes vars layout e) (styleElement { env with fuel := fuel' } t n parent sizes vars layout e) := by
  unfold styleElement
  dsimp only
  split
  · exact .refl _
  · rename_i rules _
    intro hne
    cases hc : computeBlocks fuel (elementBlocks rules (parent.inherit e.reset).style) vars [] with
    | none => rw [hc] at hne; exact absurd rfl hne
    | some r =>
      rw [hc] at hne
      rw [computeBlocks_mono hf _ hc]
      dsimp only at hne ⊢
      rw [playAnimators_extends hf env n _ _ _ _ (fun he => hne (by rw [he]))]
      cases ha : playAnimators { env with fuel := fuel } n r.1 0 (parent.inherit e.reset).animators r.2 with
      | error e => rfl
      | ok q =>
        rw [ha] at hne
        dsimp only at hne ⊢
        rw [playTransitions_extends hf _ _ _ (fun he => hne (by rw [he]))]

end computing

theorem forEach_extends {σ : Type} {f g : σ → NodeId → Except Trouble σ} (h : ∀ s c, Extends (f s c) (g s c)) (cs : List NodeId) :
    ∀ s, Extends (forEach f cs s) (forEach g cs s) := by
  induction cs with
  | nil => intro s; exact .refl _
  | cons c cs ih => intro s; exact Extends.bind (h s c) (fun s => ih s)

theorem styleTree_extends {fuel fuel' depth depth' : Nat} (hf : fuel ≤ fuel') (hd : depth ≤ depth') (env : FrameEnv) (n : NodeId) (sizes : Sizes) (vars : Variables) (s : Styled) :
    Extends (styleTree { env with fuel := fuel } depth n sizes vars s) (styleTree { env with fuel := fuel' } depth' n sizes vars s) := by
  induction depth generalizing depth' n sizes vars s with
  | zero => intro h; exact absurd rfl h
  | succ k ih =>
    obtain ⟨m, rfl⟩ : ∃ m, depth' = m + 1 := ⟨depth' - 1, by omega⟩
    simp only [styleTree]
    split
    · split
      · exact .refl _
      · intro hne
        rw [styleElement_extends hf env _ _ _ _ _ _ _ (fun he => hne (by rw [he]))]
        revert hne
        split
        · intro _; rfl
        · split
          · intro _; rfl
          · exact forEach_extends (fun s c => ih (by omega) c _ _ s) _ _
    · exact .refl _

theorem placeTree_extends (boxes : NodeId → Layout) {depth depth' : Nat} (hd : depth ≤ depth') (n : NodeId) (location : Rat × Rat) (opacity : Rat)
    (clipping : Option Layout) (t : Tree) : Extends (placeTree boxes depth n location opacity clipping t) (placeTree boxes depth' n location opacity clipping t) := by
  induction depth generalizing depth' n location opacity clipping t with
  | zero => intro h; exact absurd rfl h
  | succ k ih =>
    obtain ⟨m, rfl⟩ : ∃ m, depth' = m + 1 := ⟨depth' - 1, by omega⟩
    simp only [placeTree]
    split
    · exact .refl _
    · exact forEach_extends (fun t c => ih (by omega) c _ _ _ t) _ _

theorem Trouble.halt_endless {t : Trouble} : t.halt = .endless ↔ t = .endless := by cases t <;> simp [Trouble.halt]

theorem update_mono (p : Platform) {fuel fuel' : Nat} (hf : fuel ≤ fuel') (order : FrameOrder) (a : App) (input : Input) (value : Json)
    (h : a.update p fuel order input value ≠ .error .endless) : a.update p fuel' order input value = a.update p fuel order input value := by
  unfold App.update at h ⊢
  cases hv : a.screen.view.update p.inline value with
  | error f => rfl
  | ok v =>
    rw [hv] at h
    dsimp only at h ⊢
    have hs := styleTree_extends hf hf (a.env p fuel order input.time) v.body ⟨16, 16, ⟨0, 0, 0, 0⟩, input.viewport.1, input.viewport.2⟩ (fun _ => none)
      ⟨v.stage.tree, upd a.layouts v.root (resizeRoot input.viewport (a.layouts v.root))⟩
    have hs' : styleView (a.env p fuel' order input.time) fuel' v.body input.viewport ⟨v.stage.tree, upd a.layouts v.root (resizeRoot input.viewport (a.layouts v.root))⟩ =
        styleView (a.env p fuel order input.time) fuel v.body input.viewport ⟨v.stage.tree, upd a.layouts v.root (resizeRoot input.viewport (a.layouts v.root))⟩ := by
      refine hs (fun he => h ?_)
      have he' : styleView (a.env p fuel order input.time) fuel v.body input.viewport ⟨v.stage.tree, upd a.layouts v.root (resizeRoot input.viewport (a.layouts v.root))⟩ = .error .endless := he
      rw [he']; rfl
    rw [hs']
    cases hst : styleView (a.env p fuel order input.time) fuel v.body input.viewport ⟨v.stage.tree, upd a.layouts v.root (resizeRoot input.viewport (a.layouts v.root))⟩ with
    | error t => rfl
    | ok styled =>
      rw [hst] at h
      dsimp only at h ⊢
      have hp : placeView (p.solve (styled.recall order.recall)) fuel' v.body styled.tree = placeView (p.solve (styled.recall order.recall)) fuel v.body styled.tree := by
        refine placeTree_extends _ hf _ _ _ _ _ (fun he => h ?_)
        have he' : placeView (p.solve (styled.recall order.recall)) fuel v.body styled.tree = .error .endless := he
        rw [he']; rfl
      rw [hp]

theorem run_fuel_mono (p : Platform) {fuel fuel' : Nat} (hf : fuel ≤ fuel') (fs : List Frame) : ∀ a : App,
    a.run p fuel fs ≠ .error .endless → a.run p fuel' fs = a.run p fuel fs := by
  induction fs with
  | nil => intro a _; rfl
  | cons f fs ih =>
    intro a h
    simp only [App.run] at h ⊢
    rw [update_mono p hf f.order a f.input f.value (fun he => h (by rw [he]))]
    cases hu : a.update p fuel f.order f.input f.value with
    | error e => rfl
    | ok r =>
      rw [hu] at h
      dsimp only at h ⊢
      rw [ih r.1 (fun he => h (by rw [he]))]

theorem keepEach_mono {σ : Type} {f g : σ → NodeId → Except Halt σ} (h : ∀ s c, f s c ≠ .error .endless → g s c = f s c) (cs : List NodeId) :
    ∀ s, keepEach f cs s ≠ .error .endless → keepEach g cs s = keepEach f cs s := by
  induction cs with
  | nil => intro s _; rfl
  | cons c cs ih =>
    intro s hne
    simp only [keepEach] at hne ⊢
    rw [h s c (fun he => hne (by rw [he]))]
    cases hc : f s c with
    | error e => rfl
    | ok s' => rw [hc] at hne; exact ih s' hne

theorem keepRules_mono (checks : Bool) (styles : List Style) (t : Tree) {fuel fuel' : Nat} (hf : fuel ≤ fuel') (n : NodeId) (kept : NodeId → List ElementStyle)
    (h : keepRules checks styles t fuel n kept ≠ .error .endless) : keepRules checks styles t fuel' n kept = keepRules checks styles t fuel n kept := by
  induction fuel generalizing fuel' n kept with
  | zero => exact absurd rfl h
  | succ k ih =>
    obtain ⟨m, rfl⟩ : ∃ m, fuel' = m + 1 := ⟨fuel' - 1, by omega⟩
    simp only [keepRules] at h ⊢
    cases hc : t.ctx n with
    | none => rfl
    | some e =>
      rw [hc] at h
      dsimp only at h ⊢
      cases hl : classify checks t n e styles with
      | error f => rfl
      | ok l =>
        rw [hl] at h
        exact keepEach_mono (fun s c hne => ih (by omega) c s hne) _ _ h

theorem openApp_mono (p : Platform) {fuel fuel' : Nat} (hf : fuel ≤ fuel') (document : Html) (css : Css) (h : openApp p fuel document css ≠ .error .endless) :
    openApp p fuel' document css = openApp p fuel document css := by
  have hr : renderView ⟨(collect document.children (fun _ => none)).1, p.translate, p.inline⟩ fuel' (collect document.children (fun _ => none)).2 =
      renderView ⟨(collect document.children (fun _ => none)).1, p.translate, p.inline⟩ fuel (collect document.children (fun _ => none)).2 := by
    unfold renderView
    dsimp only
    rw [renderNode_mono_le _ hf]
    intro he
    apply h
    unfold openApp renderView
    dsimp only
    rw [he]
    rfl
  unfold openApp at h ⊢
  dsimp only at h ⊢
  rw [hr]
  cases hv : renderView ⟨(collect document.children (fun _ => none)).1, p.translate, p.inline⟩ fuel (collect document.children (fun _ => none)).2 with
  | error e => rfl
  | ok r =>
    rw [hv] at h
    obtain ⟨root, body, σ⟩ := r
    dsimp only at h ⊢
    cases hm : ViewModel.create (lookupRegs σ.regs) σ.schema p.transformers with
    | none => rfl
    | some vm =>
      rw [hm] at h
      dsimp only at h ⊢
      rw [keepRules_mono p.checks css.styles σ.tree hf body (fun _ => []) (fun he => h (by rw [he]))]

theorem readHtml_mono {fuel fuel' : Nat} (hf : fuel ≤ fuel') {text : String} {r} (h : readHtml fuel text = some r) : readHtml fuel' text = some r := by
  unfold readHtml at h ⊢
  unfold Grammar.parse at h ⊢
  cases hp : run htmlGrammar fuel .nonAtomic (.call .document) text.toList with
  | none => rw [hp] at h; cases h
  | some x => rw [hp] at h; rw [run_mono hf hp]; exact h

theorem readCss_mono {fuel fuel' : Nat} (hf : fuel ≤ fuel') {text : String} {r} (h : readCss fuel text = some r) : readCss fuel' text = some r := by
  unfold readCss at h ⊢
  unfold Grammar.parse at h ⊢
  cases hp : run cssGrammar fuel .nonAtomic (.call .styleSheet) text.toList with
  | none => rw [hp] at h; cases h
  | some x => rw [hp] at h; rw [run_mono hf hp]; exact h

theorem fromHtml_mono (p : Platform) {fuel fuel' : Nat} (hf : fuel ≤ fuel') (html css : String) (h : fromHtml p fuel html css ≠ .error .endless) :
    fromHtml p fuel' html css = fromHtml p fuel html css := by
  unfold fromHtml at h ⊢
  cases hh : readHtml fuel html with
  | none => rw [hh] at h; exact absurd rfl h
  | some x =>
    rw [hh] at h
    rw [readHtml_mono hf hh]
    cases x with
    | error f => rfl
    | ok document =>
      dsimp only at h ⊢
      cases hc : readCss fuel css with
      | none => rw [hc] at h; exact absurd rfl h
      | some y =>
        rw [hc] at h
        rw [readCss_mono hf hc]
        cases y with
        | error f => rfl
        | ok css => exact openApp_mono p hf document css h

end Verif
