import Verif.View.Documents
import Verif.Props.UselessExamples
/-!
# C106 and C107: documents that mean the same
-/
namespace Verif
open Sheet

variable {p : Platform}

theorem played_open {document document' : Html} {fuel : Nat} {css : Css} (h : openApp p fuel document' css = openApp p fuel document css) (fuel' : Nat) (fs : List Frame) :
    played p fuel fuel' document' css fs = played p fuel fuel' document css fs := by
  unfold played; rw [h]

/-- **C106.** Of a document only the first body counts, and the templates it needs: two documents that agree on these open alike, and do the same. -/
theorem C106_only_what_is_needed {document document' : Html} (hb : docBody document' = docBody document)
    (ht : ∀ id, (docBody document).Needs (templateFor document.children) id → templateFor document'.children id = templateFor document.children id)
    (fuel fuel' : Nat) (css : Css) (fs : List Frame) : played p fuel fuel' document' css fs = played p fuel fuel' document css fs :=
  played_open (openApp_agree hb ht fuel css) fuel' fs

theorem lookup_more {U : Html → Prop} {id : String} (hU : ∀ x, U x → ∀ a t, x.definition = some (a, t) → a ≠ id) {l l' : List Html} (h : WithMore U l l') :
    (l'.filterMap Html.definition).reverse.lookup id = (l.filterMap Html.definition).reverse.lookup id := by
  have append : ∀ (l m : List (String × Html)), (l ++ m).lookup id = (l.lookup id).or (m.lookup id) := fun l m => List.lookup_append
  induction h with
  | nil => rfl
  | @same x l l' _ ih =>
    simp only [List.filterMap_cons]
    split
    · exact ih
    · simp only [List.reverse_cons, append, ih]
  | @more x l l' hx _ ih =>
    simp only [List.filterMap_cons]
    split
    · exact ih
    · rename_i r hr
      obtain ⟨a, t⟩ := r
      have := hU x hx a t hr
      rw [List.reverse_cons, append, ih]
      have hne : (id == a) = false := by simpa using fun e => this e.symm
      simp only [List.lookup, hne, Option.or_none]

theorem beforeBody_split {l post : List Html} {b : Html} (h : ∀ x ∈ l, x.tag ≠ "body") (hb : b.tag = "body") : beforeBody (l ++ b :: post) = l := by
  unfold beforeBody
  rw [List.takeWhile_append_of_pos (by simpa using h), List.takeWhile_cons_of_neg (by simpa using hb), List.append_nil]

theorem docBody_split {tag : String} {bs : List ElementBinding} {text : Option (List TextSpan)} {l post : List Html} {b : Html} (h : ∀ x ∈ l, x.tag ≠ "body") (hb : b.tag = "body") :
    docBody (.mk tag bs text (l ++ b :: post)) = b := by
  unfold docBody
  simp only [Html.children]
  rw [List.find?_append, List.find?_eq_none.2 (by simpa using h), Option.none_or, List.find?_cons_of_pos (by simpa using hb)]
  rfl

/-- **C106** (in the text) What is added to a document makes no difference: anything at all after the body, and in front of it anything but bodies and
templates that the body needs. -/
theorem C106_more_elements {tag tag' : String} {bs bs' : List ElementBinding} {text text' : Option (List TextSpan)} {l l' post post' : List Html} {b : Html}
    (hl : ∀ x ∈ l, x.tag ≠ "body") (hb : b.tag = "body") (hm : WithMore (Html.Unneeded (.mk tag bs text (l ++ b :: post))) l l')
    (fuel fuel' : Nat) (css : Css) (fs : List Frame) :
    played p fuel fuel' (.mk tag' bs' text' (l' ++ b :: post')) css fs = played p fuel fuel' (.mk tag bs text (l ++ b :: post)) css fs := by
  have hl' : ∀ x ∈ l', x.tag ≠ "body" := by
    have : ∀ {l l' : List Html}, WithMore (Html.Unneeded (.mk tag bs text (l ++ b :: post))) l l' → True := fun _ => trivial
    clear this
    generalize Html.mk tag bs text (l ++ b :: post) = doc at hm
    induction hm with
    | nil => exact hl
    | @same x l l' _ ih =>
      intro y hy
      rcases List.mem_cons.1 hy with rfl | hy
      · exact hl _ List.mem_cons_self
      · exact ih (fun z hz => hl z (List.mem_cons_of_mem _ hz)) y hy
    | @more x l l' hx _ ih =>
      intro y hy
      rcases List.mem_cons.1 hy with rfl | hy
      · exact hx.1
      · exact ih hl y hy
  refine C106_only_what_is_needed ?_ (fun id hid => ?_) fuel fuel' css fs
  · rw [docBody_split hl hb, docBody_split hl' hb]
  · unfold templateFor
    simp only [Html.children]
    rw [beforeBody_split hl hb, beforeBody_split hl' hb]
    exact lookup_more (fun x hx a t hd e => hx.2 a t hd (e ▸ hid)) hm

/-- **C107.** A link means what it links to: a document in which links are replaced by their templates, in the body and in templates, and
children of elements that cannot have any are left out or changed, opens alike and does the same. -/
theorem C107_links_inlined {document document' : Html} (hb : (docBody document).Inlined (templateFor document.children) (docBody document'))
    (ht : ∀ id, Option.Rel (Html.Inlined (templateFor document.children)) (templateFor document.children id) (templateFor document'.children id))
    (fuel fuel' : Nat) (css : Css) (fs : List Frame) : played p fuel fuel' document' css fs = played p fuel fuel' document css fs :=
  played_open (openApp_docs (inlined_alike (env := docEnv p.translate p.inline document) (env' := docEnv p.translate p.inline document') rfl rfl ht) hb fuel css) fuel' fs

end Verif
