import Verif.View.Dressed
import Verif.Props.Ids
import Verif.Props.ReadCss
import Verif.Props.InlineExamples
import Verif.Spec.Look
/-!
# C90: the inline style is what the `style` attribute says
-/
namespace Verif

variable {p : Platform} {pending : String → Prop}

/-- C90 (part): at the end of every run of a program without `#style`, the inline style of every element is what its `style`
attribute says now, unless that is still the text a bound style has before anything was bound; without the attribute there is
none. Missing: the unbound texts (`C90_text_counterexample`). -/
theorem C90_inline_partial {fuel fuel' : Nat} {document : Html} {css : Css} {a a' : App} {fs : List Frame} {outs : List Output}
    (hn : NoTag p "style" document) (hd : PendingStyles p pending document)
    (ho : openApp p fuel document css = .ok a) (hr : a.run p fuel' fs = .ok (a', outs)) {n : NodeId} {e : Element} (he : a'.screen.view.stage.tree.ctx n = some e) :
    (∀ text, e.attrs "style" = some text → ¬ pending text → ∀ ds, p.inline text = some ds → e.style = ds) ∧ (e.attrs "style" = none → e.style = []) := by
  have := (dressed_run fs (DressedApp.opened hn hd ho) hr).dressed n e he
  exact ⟨fun text h1 h2 ds h3 => this.1 text ds h1 h2 h3, this.2⟩

/-- C90 (part): so the declarations the attribute is written with are the inline style. -/
theorem C90_written_partial {fuel fuel' : Nat} {document : Html} {css : Css} {a a' : App} {fs : List Frame} {outs : List Output} (hp : p.Honest)
    (hn : NoTag p "style" document) (hd : PendingStyles p pending document)
    (ho : openApp p fuel document css = .ok a) (hr : a.run p fuel' fs = .ok (a', outs)) {n : NodeId} {e : Element} (he : a'.screen.view.stage.tree.ctx n = some e)
    {ds : List Declaration} {t : List Char} (ht : Sheet.Declarations ds t) (ha : e.attrs "style" = some (String.ofList t)) (hnp : ¬ pending (String.ofList t)) : e.style = ds := by
  refine (C90_inline_partial hn hd ho hr he).1 _ ha hnp ds ?_
  obtain ⟨F, hF⟩ := C71_inline ht
  obtain ⟨F', hF'⟩ := hp (String.ofList t)
  have := (hF (F + F') (by omega)).symm.trans (hF' (F + F') (by omega))
  split at this
  · rename_i ds' h
    injection this with this; injection this with this
    rw [h, this]
  · injection this with this; cases this

/-- **C90** for programs whose styles are not bound. -/
theorem C90_static {fuel fuel' : Nat} {document : Html} {css : Css} {a a' : App} {fs : List Frame} {outs : List Output} (hp : p.Honest)
    (hn : NeverBound p document "style") (ho : openApp p fuel document css = .ok a) (hr : a.run p fuel' fs = .ok (a', outs))
    {n : NodeId} {e : Element} (he : a'.screen.view.stage.tree.ctx n = some e) :
    (∀ (ds : List Declaration) (t : List Char), Sheet.Declarations ds t → e.attrs "style" = some (String.ofList t) → e.style = ds) ∧ (e.attrs "style" = none → e.style = []) := by
  have k1 : ∀ h : Html, ¬ h.BindsKey "style" → TagFree "style" h := fun h hk b hb => hk ⟨_, hb, rfl⟩
  have k2 : ∀ h : Html, ¬ h.BindsKey "style" → h.PendingStyle (fun _ => False) := fun h hk sp hb => hk ⟨_, hb, rfl⟩
  have hn1 : NoTag p "style" document := ⟨k1 _ hn.1, fun d hd => k1 d (hn.2.1 d hd), fun id t ht => ⟨k1 t (hn.2.2 id t ht).1, fun d hd => k1 d ((hn.2.2 id t ht).2 d hd)⟩⟩
  have hn2 : PendingStyles p (fun _ => False) document := ⟨k2 _ hn.1, fun d hd => k2 d (hn.2.1 d hd), fun id t ht => ⟨k2 t (hn.2.2 id t ht).1, fun d hd => k2 d ((hn.2.2 id t ht).2 d hd)⟩⟩
  exact ⟨fun ds t ht ha => C90_written_partial hp hn1 hn2 ho hr he ht ha id, (C90_inline_partial hn1 hn2 ho hr he).2⟩

/-- C90 (part): the same when the bindings of the last update have been updated and the elements are about to be styled; so in
C77 "the inline style" is what the `style` attribute says. -/
theorem C90_look_partial {document : Html} {css : Css} {last : Frame} {v : View} {a' : App} (hn : NoTag p "style" document) (hd : PendingStyles p pending document)
    (h : LastUpdate p document css last v a') {n : NodeId} {e : Element} (he : v.stage.tree.ctx n = some e) :
    (∀ text, e.attrs "style" = some text → ¬ pending text → ∀ ds, p.inline text = some ds → e.style = ds) ∧ (e.attrs "style" = none → e.style = []) := by
  obtain ⟨fuel, fuel', a, fs, a1, outs, out, h1, h2, h3, h4⟩ := h.program
  have hk := dressed_run fs (DressedApp.opened hn hd h1) h2
  have := (hk.living.dressed h3 hk.tags hk.dressed).1 n e he
  exact ⟨fun text h1 h2 ds h3 => this.1 text ds h1 h2 h3, this.2⟩

/-! ## Examples -/

/-- The modelled reader, for short texts. -/
def readingPlatform : Platform :=
  { fontPlatform with inline := fun t => match readInline 300 t with | some (.ok ds) => some ds | _ => none }

/-- `<p @style="left:0;">`: a bound style without binding. -/
def textStyleDoc : Html := .mk "html" [] none [.mk "body" [] none [.mk "p" [.attribute "style" [.string "left:0;"]] none []]]

def styleCheck (doc : Html) (fs : List Frame) (P : App → Bool) : Bool :=
  match openApp readingPlatform 100 doc bareCss with
  | .error _ => false
  | .ok a => match a.evalRun readingPlatform 100 fs with
    | some (.ok (a1, _)) => P a1
    | _ => false

theorem styleCheck_sound {doc : Html} {fs : List Frame} {P : App → Bool} (h : styleCheck doc fs P = true) :
    ∃ a a' outs, openApp readingPlatform 100 doc bareCss = .ok a ∧ a.run readingPlatform 100 fs = .ok (a', outs) ∧ P a' = true := by
  unfold styleCheck at h
  split at h
  · cases h
  · rename_i a ho
    split at h
    · rename_i a1 outs hr
      exact ⟨a, a1, outs, ho, App.evalRun_sound fs hr, h⟩
    · cases h

def App.hasStyle (a : App) (n : NodeId) (text : String) (count : Nat) : Bool :=
  match a.screen.view.stage.tree.ctx n with
  | some e => decide (e.attrs "style" = some text ∧ e.style.length = count)
  | none => false

theorem App.hasStyle_sound {a : App} {n : NodeId} {text : String} {count : Nat} (h : a.hasStyle n text count = true) :
    ∃ e, a.screen.view.stage.tree.ctx n = some e ∧ e.attrs "style" = some text ∧ e.style.length = count := by
  unfold App.hasStyle at h
  split at h
  · rename_i e he
    simp only [decide_eq_true_eq] at h
    exact ⟨e, he, h⟩
  · cases h

/-- C90, counterexample: `@style="left:0;"` has one declaration but is never read. -/
theorem C90_text_counterexample : ∃ a a' outs e, openApp readingPlatform 100 textStyleDoc bareCss = .ok a ∧ a.run readingPlatform 100 [idFrame "x"] = .ok (a', outs) ∧
    a'.screen.view.stage.tree.ctx 2 = some e ∧ e.attrs "style" = some "left:0;" ∧ e.style.length = 0 ∧
    inlineOf 300 "left:0;" = some [⟨none, some .Left, [[.value .zero, .space]]⟩] := by
  obtain ⟨a, a', outs, h1, h2, h3⟩ := styleCheck_sound (doc := textStyleDoc) (fs := [idFrame "x"]) (P := fun a => a.hasStyle 2 "left:0;" 0) (by decide +kernel)
  obtain ⟨e, h4, h5, h6⟩ := App.hasStyle_sound h3
  exact ⟨a, a', outs, e, h1, h2, h4, h5, h6, by decide +kernel⟩

/-- The conditions of `C90_inline_partial` are met by a document with a bound style, whose unbound text is only one. -/
theorem widthDoc_pending : NoTag readingPlatform "style" widthDoc ∧ PendingStyles readingPlatform (· = "width:{ w }px;") widthDoc := by
  have hno : ((beforeBody widthDoc.children).filterMap Html.definition).map Prod.snd = [] := rfl
  refine ⟨⟨?_, everyNode_of 4 ?_ ?_ ?_⟩, ⟨?_, everyNode_of 4 ?_ ?_ ?_⟩⟩
  · rw [width_body]; intro b hb; simp [Html.bindings] at hb
  · rw [width_body]; simp [Html.depth]
  · rw [width_body]
    intro c hc
    simp only [Html.nodes, Html.children, List.flatMap_cons, List.flatMap_nil, List.append_nil, List.mem_cons, List.not_mem_nil, or_false] at hc
    rcases hc with rfl
    intro b hb; simp [Html.bindings] at hb
  · rw [hno]; intro t ht; cases ht
  · rw [width_body]; intro b hb; simp [Html.bindings] at hb
  · rw [width_body]; simp [Html.depth]
  · rw [width_body]
    intro c hc
    simp only [Html.nodes, Html.children, List.flatMap_cons, List.flatMap_nil, List.append_nil, List.mem_cons, List.not_mem_nil, or_false] at hc
    rcases hc with rfl
    intro sp hb
    simp only [Html.bindings, List.mem_singleton, ElementBinding.attribute.injEq, true_and] at hb
    subst hb
    decide +kernel
  · rw [hno]; intro t ht; cases ht

/-- Its style is read anew with every change: nothing at first, then `width:1px;`, then `width:2px;`. -/
theorem C90_example : styleCheck widthDoc [] (fun a => a.hasStyle 2 "width:{ w }px;" 0) = true ∧
    styleCheck widthDoc (widthFrames.take 1) (fun a => a.hasStyle 2 "width:1px;" 1) = true ∧
    styleCheck widthDoc widthFrames (fun a => a.hasStyle 2 "width:2px;" 1) = true := by
  refine ⟨?_, ?_, ?_⟩ <;> decide +kernel

end Verif
