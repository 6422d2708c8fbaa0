import Verif.View.Pictures
import Verif.Props.LookExamples
/-!
# C80: images show their source
-/
namespace Verif

variable {p : Platform}

/-- **C80** without `#src`: after any history of updates every displayed image has exactly one child, which fills it and
shows nothing but the picture of the image's current `src` (or of the empty name if it has none). No style reaches it. -/
theorem C80_pictures_partial {fuel fuel' : Nat} {document : Html} {css : Css} {a a' : App} {fs : List Frame} {outs : List Output} (hn : NoTag p "src" document)
    (ho : openApp p fuel document css = .ok a) (hr : a.run p fuel' fs = .ok (a', outs)) {n : NodeId} {e : Element}
    (hd : Displayed a'.screen.view.stage.tree a'.screen.view.body n) (he : a'.screen.view.stage.tree.ctx n = some e) (hi : e.tag = "img") :
    ∃ c pe, a'.screen.view.stage.tree.kids n = [c] ∧ a'.screen.view.stage.tree.ctx c = some pe ∧ a'.layouts c = fillingLayout ∧
      pe.backgrounds = [{ image := some ((e.attrs "src").getD ""), isSrc := true }] ∧ pe.text = none ∧ pe.children = [] ∧ pe.listeners = (picture c "").listeners ∧
      pe.borders = (picture c "").borders ∧ pe.visible = true ∧ pe.pointerEvents = .auto ∧ pe.selfOpacity = 1 := by
  have h := illustrated_run fs (Illustrated.opened hn ho) hr
  have wf := (session_ok h.living.session).standing.wf
  have hnr : n ≠ a'.screen.view.root := by
    have h1 := hd.le wf
    have h2 := (wf.slotsYounger a'.screen.view.root a'.screen.view.body (by unfold Tree.slots; rw [if_pos rfl]; simp)).1
    unfold NodeId at *
    omega
  obtain ⟨c, pe, h1, h2, h3⟩ := h.pictured n e hnr he hi
  refine ⟨c, pe, ?_, h2, h.layouts n e c hnr he hi (by rw [h1]; simp), ?_⟩
  · rw [(wf.img n e he hi hnr).2, h1]
  · rw [h3]
    exact ⟨rfl, rfl, rfl, rfl, rfl, rfl, rfl, rfl⟩

/-- The condition can be seen from the templates and the body. -/
theorem noTag_of_plain {p : Platform} {document : Html} {key : String} (h1 : TagFree key (docBody document)) (h2 : ∀ d, (docBody document).Below d → TagFree key d)
    (h3 : ∀ id, templateFor document.children id = none) : NoTag p key document :=
  ⟨h1, h2, fun id t ht => by rw [show (docEnv p.translate p.inline document).templates = templateFor document.children from rfl, h3] at ht; cases ht⟩

/-- `<body><img @src="ui/{icon}.png"></body>`. -/
def pictureDoc : Html := .mk "html" [] none [.mk "body" [] none [.mk "img" [.attribute "src" [.string "ui/", .binder (path1 "icon"), .string ".png"]] none []]]

/-- `img { visibility: hidden; width: 40px }`. -/
def pictureCss : Css := ⟨[⟨[[.type "img"]], [.property .Visibility [[.explicit (.keyword "hidden")]], .property .Width [[.explicit (.dimension ⟨40, .px⟩)]]]⟩], fun _ => none⟩

def pictureFrames : List Frame :=
  [⟨orderId, ⟨1, (800, 600), []⟩, .obj [("icon", .str "sword")]⟩, ⟨orderId, ⟨1, (800, 600), []⟩, .obj [("icon", .str "axe")]⟩]

def pictureCheck (document : Html) (css : Css) (fs : List Frame) (src image : String) (shown : Bool) : Bool :=
  match openApp wholePlatform 100 document css with
  | .error _ => false
  | .ok a => match a.evalRun wholePlatform 100 fs with
    | some (.ok (a', _)) =>
      decide (a'.screen.view.body = 1 ∧ a'.screen.view.stage.tree.kids 1 = [2] ∧ a'.screen.view.stage.tree.kids 2 = [3]) &&
      match a'.screen.view.stage.tree.ctx 2, a'.screen.view.stage.tree.ctx 3 with
      | some e, some pe => decide (e.tag = "img" ∧ e.attrs "src" = some src ∧ e.visible = shown) && decide (pe.backgrounds.map (·.image) = [some image] ∧ pe.visible = true)
      | _, _ => false
    | _ => false

theorem pictureCheck_bound : pictureCheck pictureDoc pictureCss pictureFrames "ui/axe.png" "ui/axe.png" false = true := by decide +kernel

theorem pictureCheck_sound {document : Html} {css : Css} {fs : List Frame} {src image : String} {shown : Bool} (h : pictureCheck document css fs src image shown = true) :
    ∃ a a' outs e pe, openApp wholePlatform 100 document css = .ok a ∧ a.run wholePlatform 100 fs = .ok (a', outs) ∧
      Displayed a'.screen.view.stage.tree a'.screen.view.body 2 ∧ a'.screen.view.stage.tree.ctx 2 = some e ∧ e.tag = "img" ∧ e.attrs "src" = some src ∧ e.visible = shown ∧
      a'.screen.view.stage.tree.kids 2 = [3] ∧ a'.screen.view.stage.tree.ctx 3 = some pe ∧ pe.backgrounds.map (·.image) = [some image] ∧ pe.visible = true := by
  unfold pictureCheck at h
  split at h
  · cases h
  rename_i a ha
  split at h
  case h_2 => cases h
  rename_i a' outs hr
  have hr' := App.evalRun_sound _ hr
  rw [Bool.and_eq_true, decide_eq_true_eq] at h
  obtain ⟨⟨b1, b2, b3⟩, h⟩ := h
  split at h
  case h_2 => cases h
  rename_i e pe c1 c2
  simp only [Bool.and_eq_true, decide_eq_true_eq] at h
  obtain ⟨⟨d1, d2, d3⟩, d4, d5⟩ := h
  refine ⟨a, a', outs, e, pe, ha, hr', ?_, c1, d1, d2, d3, b3, c2, d4, d5⟩
  rw [b1]
  exact .child .root (by rw [b2]; simp)

/-- The conditions of C80 are met by an image whose `src` is bound and changes. Its picture is drawn although the image is
hidden. -/
theorem C80_example : NoTag wholePlatform "src" pictureDoc ∧ ∃ a a' outs e pe, openApp wholePlatform 100 pictureDoc pictureCss = .ok a ∧
    a.run wholePlatform 100 pictureFrames = .ok (a', outs) ∧
      Displayed a'.screen.view.stage.tree a'.screen.view.body 2 ∧ a'.screen.view.stage.tree.ctx 2 = some e ∧ e.tag = "img" ∧ e.attrs "src" = some "ui/axe.png" ∧ e.visible = false ∧
      a'.screen.view.stage.tree.kids 2 = [3] ∧ a'.screen.view.stage.tree.ctx 3 = some pe ∧ pe.backgrounds.map (·.image) = [some "ui/axe.png"] ∧ pe.visible = true := by
  refine ⟨noTag_of_plain ?_ ?_ ?_, pictureCheck_sound pictureCheck_bound⟩
  · intro b hb
    simp [docBody, pictureDoc, Html.children, Html.bindings, Html.tag] at hb
  · intro d hd
    cases hd with
    | child hc =>
      simp [docBody, pictureDoc, Html.children, Html.tag] at hc
      subst hc
      intro b hb
      simp [Html.bindings] at hb
    | step hc hd =>
      simp [docBody, pictureDoc, Html.children, Html.tag] at hc
      subst hc
      cases hd with
      | child hc => cases hc
      | step hc _ => cases hc
  · intro id; simp [templateFor, beforeBody, pictureDoc, Html.children, Html.tag]

/-- `<body><img src="a.png" #src="{x}"></body>`. -/
def tagSrcDoc : Html := .mk "html" [] none [.mk "body" [] none [.mk "img" [.none "src" "a.png", .tag "src" (path1 "x")] none []]]

theorem pictureCheck_tag : pictureCheck tagSrcDoc pictureCss [⟨orderId, ⟨1, (800, 600), []⟩, .obj [("x", .bool true)]⟩] "src" "a.png" false = true := by decide +kernel

/-- With `#src` the picture is not the one the attribute names. -/
theorem C80_tag_counterexample : ∃ a a' outs e pe, openApp wholePlatform 100 tagSrcDoc pictureCss = .ok a ∧
    a.run wholePlatform 100 [⟨orderId, ⟨1, (800, 600), []⟩, .obj [("x", .bool true)]⟩] = .ok (a', outs) ∧
      Displayed a'.screen.view.stage.tree a'.screen.view.body 2 ∧ a'.screen.view.stage.tree.ctx 2 = some e ∧ e.tag = "img" ∧ e.attrs "src" = some "src" ∧ e.visible = false ∧
      a'.screen.view.stage.tree.kids 2 = [3] ∧ a'.screen.view.stage.tree.ctx 3 = some pe ∧ pe.backgrounds.map (·.image) = [some "a.png"] ∧ pe.visible = true :=
  pictureCheck_sound pictureCheck_tag

end Verif
