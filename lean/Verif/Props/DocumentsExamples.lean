import Verif.Props.Documents
import Verif.Props.Copies
/-!
# C106 and C107: examples
-/
namespace Verif
open Sheet

theorem needs_within {env : RenderEnv} {h : Html} {S : String → Prop} (he : EveryNode env (fun c => ∀ id, c.target = some id → S id) h) {id : String}
    (hn : h.Needs env.templates id) : S id := by
  cases hn with
  | link h1 h2 => exact he.1 _ h1 _ h2
  | through _ h2 =>
    obtain ⟨t, ht, c, hc, hct⟩ := h2
    exact (he.2 _ t ht).2 c hc _ hct

theorem whole_needs {id : String} (h : (docBody wholeDoc).Needs (templateFor wholeDoc.children) id) : id = "#t" := by
  refine needs_within (env := docEnv (fun s => s) (fun _ => none) wholeDoc) (S := fun id => id = "#t") (everyNode_of 4 ?_ ?_ ?_) h
  · rw [whole_body]; simp [Html.depth]
  · rw [whole_body]
    intro c hc
    simp only [Html.nodes, Html.children, List.flatMap_cons, List.flatMap_nil, List.append_nil, List.cons_append,
      List.nil_append, List.mem_cons, List.not_mem_nil, or_false] at hc
    rcases hc with rfl | rfl | rfl
    · intro id hid; simp [Html.target, Html.tag] at hid
    · intro id hid; simp [Html.target, Html.tag] at hid
    · intro id hid
      have : (Html.mk "link" [.none "href" "#t", .repeat "y" 2 (path1 "xs")] none []).target = some "#t" := rfl
      rw [this] at hid
      injection hid with hid
      exact hid.symm
  · have : ((beforeBody wholeDoc.children).filterMap Html.definition).map Prod.snd = [wholeItem] := rfl
    rw [this]
    intro t ht
    rw [List.mem_singleton] at ht
    subst ht
    refine ⟨by simp [wholeItem, Html.depth], ?_, ?_⟩
    · intro id hid; simp [wholeItem, Html.target, Html.tag] at hid
    · intro c hc
      simp only [wholeItem, Html.nodes, Html.children, List.flatMap_cons, List.flatMap_nil, List.append_nil, List.mem_cons, List.not_mem_nil, or_false] at hc
      subst hc
      intro id hid; simp [Html.target, Html.tag] at hid

/-- An unused template and a script. -/
def spareTemplate : Html := .mk "template" [.none "id" "u"] none [.mk "link" [.none "href" "#u"] none []]
def spareScript : Html := .mk "script" [.none "src" "a.js"] none []

/-- `wholeDoc` with both, and another body behind. -/
def wholeSpare : Html := .mk "html" [.none "lang" "en"] none [spareScript, .mk "template" [.none "id" "t"] none [wholeItem], spareTemplate, docBody wholeDoc,
  .mk "body" [] none []]

/-- The conditions of C106 are met, and the program runs. -/
theorem C106_example : WithMore (Html.Unneeded wholeDoc) [.mk "template" [.none "id" "t"] none [wholeItem]]
      [spareScript, .mk "template" [.none "id" "t"] none [wholeItem], spareTemplate] ∧
    (docBody wholeDoc).Needs (templateFor wholeDoc.children) "#t" ∧
    ∃ r, played wholePlatform 100 100 wholeDoc (meaning wholeItems) wholeFrames = .ok r ∧ played wholePlatform 100 100 wholeSpare (meaning wholeItems) wholeFrames = .ok r := by
  have hm : WithMore (Html.Unneeded wholeDoc) [.mk "template" [.none "id" "t"] none [wholeItem]]
      [spareScript, .mk "template" [.none "id" "t"] none [wholeItem], spareTemplate] := by
    refine .more ⟨by simp [spareScript, Html.tag], ?_⟩ (.same (.more ⟨by simp [spareTemplate, Html.tag], ?_⟩ .nil))
    · intro id t h; simp [spareScript, Html.definition, Html.tag] at h
    · intro id t h hn
      have h' : spareTemplate.definition = some ("#u", .mk "link" [.none "href" "#u"] none []) := rfl
      rw [h'] at h
      simp only [Option.some.injEq, Prod.mk.injEq] at h
      rw [whole_needs hn] at h
      simp at h
  refine ⟨hm, ?_, ?_⟩
  · exact .link (c := .mk "link" [.none "href" "#t", .repeat "y" 2 (path1 "xs")] none []) (.child (by rw [whole_body]; simp [Html.children])) rfl
  · obtain ⟨a, -, -, -, r, h, -⟩ := C102_example
    refine ⟨r, h, (C106_more_elements (l := [.mk "template" [.none "id" "t"] none [wholeItem]]) (b := docBody wholeDoc) (post := []) (post' := [.mk "body" [] none []])
      (tag := "html") (bs := []) (text := none) (by simp [Html.tag]) rfl hm 100 100 (meaning wholeItems) wholeFrames).trans h⟩

/-! ## Links -/

mutual
theorem Html.Inlined.refl (ts : SMap Html) : ∀ h : Html, h.Inlined ts h
  | .mk _ _ _ cs => .mk (Html.InlinedAll.refl ts cs)
theorem Html.InlinedAll.refl (ts : SMap Html) : ∀ l : List Html, Html.InlinedAll ts l l
  | [] => .nil
  | c :: cs => .same (Html.Inlined.refl ts c) (Html.InlinedAll.refl ts cs)
end

/-- `wholeDoc` with the template in the place of the link, and without the template. -/
def wholeInlined : Html := .mk "html" [] none [.mk "body" [] none [.mk "p" [] none [.mk "" [] (some [.string "Hi ", .binder (path1 "name")]) []],
    .mk "li" [.repeat "y" 2 (path1 "xs")] none [.mk "" [] (some [.string "- ", .binder (path1 "y")]) []]]]
def wholeKept : Html := .mk "html" [] none [.mk "template" [.none "id" "t"] none [wholeItem], docBody wholeInlined]

/-- The conditions of C107 are met, and the program runs; then the template is not needed any more. -/
theorem C107_example : (docBody wholeDoc).Inlined (templateFor wholeDoc.children) (docBody wholeKept) ∧
    (∀ id, Option.Rel (Html.Inlined (templateFor wholeDoc.children)) (templateFor wholeDoc.children id) (templateFor wholeKept.children id)) ∧
    ∃ r, played wholePlatform 100 100 wholeDoc (meaning wholeItems) wholeFrames = .ok r ∧ played wholePlatform 100 100 wholeKept (meaning wholeItems) wholeFrames = .ok r ∧
      played wholePlatform 100 100 wholeInlined (meaning wholeItems) wholeFrames = .ok r := by
  have h1 : (docBody wholeDoc).Inlined (templateFor wholeDoc.children) (docBody wholeKept) :=
    .mk (.same (.refl _ _) (.link (d := .mk "li" [.repeat "y" 2 (path1 "xs")] none [.mk "" [] (some [.string "- ", .binder (path1 "y")]) []]) rfl rfl (.refl _ _) .nil))
  have h2 : ∀ id, Option.Rel (Html.Inlined (templateFor wholeDoc.children)) (templateFor wholeDoc.children id) (templateFor wholeKept.children id) := by
    intro id
    have : templateFor wholeKept.children = templateFor wholeDoc.children := rfl
    rw [this]
    cases templateFor wholeDoc.children id with
    | none => exact .none
    | some t => exact .some (.refl _ _)
  obtain ⟨a, -, -, -, r, h, -⟩ := C102_example
  have h3 := (C107_links_inlined h1 h2 100 100 (meaning wholeItems) wholeFrames).trans h
  refine ⟨h1, h2, r, h, h3, (C106_only_what_is_needed (document := wholeKept) rfl (fun id hid => ?_) 100 100 (meaning wholeItems) wholeFrames).trans h3⟩
  refine (needs_within (env := docEnv (fun s => s) (fun _ => none) wholeKept) (S := fun _ => False) (everyNode_of 4 ?_ ?_ ?_) hid).elim
  · simp [docBody, wholeKept, wholeInlined, Html.children, Html.tag, Html.depth]
  · have : docBody wholeKept = .mk "body" [] none [.mk "p" [] none [.mk "" [] (some [.string "Hi ", .binder (path1 "name")]) []],
      .mk "li" [.repeat "y" 2 (path1 "xs")] none [.mk "" [] (some [.string "- ", .binder (path1 "y")]) []]] := rfl
    rw [this]
    intro c hc
    simp only [Html.nodes, Html.children, List.flatMap_cons, List.flatMap_nil, List.append_nil, List.cons_append,
      List.nil_append, List.mem_cons, List.not_mem_nil, or_false] at hc
    rcases hc with rfl | rfl | rfl | rfl <;> intro id hid <;> simp [Html.target, Html.tag] at hid
  · have : ((beforeBody wholeKept.children).filterMap Html.definition).map Prod.snd = [wholeItem] := rfl
    rw [this]
    intro t ht
    rw [List.mem_singleton] at ht
    subst ht
    refine ⟨by simp [wholeItem, Html.depth], ?_, ?_⟩
    · intro id hid; simp [wholeItem, Html.target, Html.tag] at hid
    · intro c hc
      simp only [wholeItem, Html.nodes, Html.children, List.flatMap_cons, List.flatMap_nil, List.append_nil, List.mem_cons, List.not_mem_nil, or_false] at hc
      subst hc
      intro id hid; simp [Html.target, Html.tag] at hid

/-- A template that is only a link to another template: `<template id="a"><link href="#b"></template>`, and the body with a link to the first
or to the second. -/
def chainDoc (first : String) : Html := .mk "html" [] none [.mk "template" [.none "id" "a"] none [.mk "link" [.none "href" "#b"] none []],
  .mk "template" [.none "id" "b"] none [.mk "p" [] none []], .mk "body" [] none [.mk "link" [.none "href" first] none []]]

/-- Why what a link is replaced by has to be no link itself in C107: a template that is itself a link is not followed any further. -/
theorem C107_chain_counterexample : linkMeaning (templateFor (chainDoc "#a").children) (.mk "link" [.none "href" "#a"] none []) = .ok (.mk "link" [.none "href" "#b"] none []) ∧
    ∃ r r', played wholePlatform 100 100 (chainDoc "#a") ⟨[], fun _ => none⟩ [] = .ok r ∧ played wholePlatform 100 100 (chainDoc "#b") ⟨[], fun _ => none⟩ [] = .ok r' ∧
      (r.1.view.stage.tree.ctx 2).map (·.tag) = some "link" ∧ (r'.1.view.stage.tree.ctx 2).map (·.tag) = some "p" := by
  refine ⟨rfl, ?_⟩
  have run : ∀ (document : Html) (tag : String), (match openApp wholePlatform 100 document ⟨[], fun _ => none⟩ with
    | .ok a => decide ((a.screen.view.stage.tree.ctx 2).map (·.tag) = some tag)
    | _ => false) = true → ∃ r, played wholePlatform 100 100 document ⟨[], fun _ => none⟩ [] = .ok r ∧ (r.1.view.stage.tree.ctx 2).map (·.tag) = some tag := by
    intro document tag h
    split at h
    case h_2 => cases h
    rename_i a ha
    refine ⟨(a.screen, a.layouts, []), ?_, of_decide_eq_true h⟩
    unfold played
    rw [ha]
    rfl
  obtain ⟨r1, p1, q1⟩ := run (chainDoc "#a") "link" (by decide +kernel)
  obtain ⟨r2, p2, q2⟩ := run (chainDoc "#b") "p" (by decide +kernel)
  exact ⟨r1, r2, p1, p2, q1, q2⟩

end Verif
