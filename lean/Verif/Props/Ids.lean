import Verif.View.Ids
import Verif.View.Hints
import Verif.Props.Tree
import Verif.Props.CacheExamples
/-!
# C22: lookup by id in programs
-/
namespace Verif

variable {p : Platform}

/-- `view.rs` 440-444 `get_element_by_id` of a program. -/
def App.lookup (a : App) (id : String) : Option Element := getElementById a.screen.view.stage id

/-- **C22** for programs (part): in every run of a program whose elements have at most one id each, a lookup returns an element
that has the id or one whose id is bound; and for every element that has an id which is not bound there is one to find. Missing:
that an element with a bound id has the id it is found by (`C22_stale_program` shows it may not). -/
theorem C22_programs_partial {fuel fuel' : Nat} {document : Html} {css : Css} {a a' : App} {fs : List Frame} {outs : List Output} (hd : OneIdDocument p document)
    (ho : openApp p fuel document css = .ok a) (hr : a.run p fuel' fs = .ok (a', outs)) (x : String) :
    (∀ e, a'.lookup x = some e → e.BindsId ∨ e.attrs "id" = some x) ∧
    (∀ n e, a'.screen.view.stage.tree.ctx n = some e → ¬ e.BindsId → e.attrs "id" = some x → ∃ found, a'.lookup x = some found) := by
  have hk := (idsOk_run fs (IdsOk.opened hd ho) hr).kept
  refine ⟨fun e he => ?_, fun n e he hb ha => ?_⟩
  · obtain ⟨n, h1, h2⟩ := Option.bind_eq_some_iff.1 he
    obtain ⟨e', h3, h4⟩ := hk.sound x n h1
    rw [h2] at h3; injection h3 with h3; subst h3
    exact h4
  · obtain ⟨n', hn⟩ := Option.isSome_iff_exists.1 (hk.complete n e x he hb ha)
    obtain ⟨e', h3, -⟩ := hk.sound x n' hn
    exact ⟨e', Option.bind_eq_some_iff.2 ⟨n', hn, h3⟩⟩

theorem run_hints {fuel fuel' : Nat} {document : Html} (fs : List Frame) {a a' : App} {outs : List Output} (h : Living p fuel document a)
    (hr : a.run p fuel' fs = .ok (a', outs)) (ha : a.screen.view.stage.tree.Every (fun _ e => ¬ e.BindsId)) : a'.screen.view.stage.tree.Every (fun _ e => ¬ e.BindsId) := by
  induction fs generalizing a outs with
  | nil => simp only [App.run, Except.ok.injEq, Prod.mk.injEq] at hr; obtain ⟨rfl, -⟩ := hr; exact ha
  | cons f fs ih =>
    obtain ⟨a1, out, rest, h1, h2, -⟩ := run_cons hr
    refine ih (h.updated h1) h2 ?_
    obtain ⟨v, styled, tree, t', ui, g1, g2, g3, g4, g5⟩ := update_parts h1
    have hst : Restyled v.stage.tree styled.tree := styleView_restyled (s := ⟨v.stage.tree, _⟩) (h.bound g1).1 g2
    have hpl : Restyled styled.tree tree := placeTree_restyled _ g3
    have hso := handleOutput_states (session_ok h.session) g1 (hst.trans hpl) g4
    have k1 := every_related (P := fun _ e => ¬ e.BindsId) (h.rebound g1) (fun _ e e' hr hq => by unfold Element.BindsId; rw [hr]; exact hq) ha
    have k2 := every_related (P := fun _ e => ¬ e.BindsId) (Tree.Related.ctxRel (hst.trans hpl)) (fun _ e e' hr hq => by unfold Element.BindsId; rw [hr.1.hints]; exact hq) k1
    have k3 := every_related (P := fun _ e => ¬ e.BindsId) (Tree.Related.ctxRel hso) (fun _ e e' hr hq => by unfold Element.BindsId; rw [hr]; exact hq) k2
    rw [g5]; exact k3

/-- **C22** for programs without bound ids: in every run of a program whose elements have at most one id each, written out in the
document, a lookup succeeds exactly if there is an element with the id, and returns one that has it. -/
theorem C22_static_ids {fuel fuel' : Nat} {document : Html} {css : Css} {a a' : App} {fs : List Frame} {outs : List Output} (hd : OneIdDocument p document)
    (hn : NeverBound p document "id") (ho : openApp p fuel document css = .ok a) (hr : a.run p fuel' fs = .ok (a', outs)) (x : String) :
    ((∃ found, a'.lookup x = some found) ↔ ∃ n e, a'.screen.view.stage.tree.ctx n = some e ∧ e.attrs "id" = some x) ∧
    ∀ e, a'.lookup x = some e → e.attrs "id" = some x := by
  obtain ⟨h1, h2⟩ := C22_programs_partial hd ho hr x
  have hb : a'.screen.view.stage.tree.Every (fun _ e => ¬ e.BindsId) := by
    refine run_hints fs (Living.opened ho) hr ?_
    obtain ⟨σ, ho⟩ := openApp_opened ho
    have hv := renderView_ok ho.rendered
    have key : ∀ h : Html, ¬ h.BindsKey "id" → HintedHtml (fun k => k ≠ "id") h := by
      intro h hk b hb
      cases b with
      | tag k x => exact fun hx => hk ⟨_, hb, hx⟩
      | «attribute» k x => exact fun hx => hk ⟨_, hb, hx⟩
      | _ => trivial
    have hint : σ.tree.Hinted (fun k => k ≠ "id") := by
      refine renderView_hinted (env := docEnv p.translate p.inline document) (h := docBody document) ?_ ho.rendered
      exact ⟨key _ hn.1, fun d hd => key d (hn.2.1 d hd), fun id t ht => ⟨key t (hn.2.2 id t ht).1, fun d hd => key d ((hn.2.2 id t ht).2 d hd)⟩⟩
    exact every_related (P := fun _ e => ¬ e.BindsId) (updateTrees_rebound (inline := p.inline) _ (s := ⟨σ.tree, σ.staticId⟩) hv.wf (defaultReactions_ok ho.rendered) ho.stage)
      (fun _ e e' hr hq => by unfold Element.BindsId; rw [hr]; exact hq) (fun n e he hx => (hint n e he).keys "id" hx rfl)
  have hfound : ∀ e, a'.lookup x = some e → e.attrs "id" = some x := by
    intro e he
    obtain ⟨n, -, hc⟩ := Option.bind_eq_some_iff.1 he
    exact (h1 e he).resolve_left (hb n e hc)
  refine ⟨⟨fun ⟨e, he⟩ => ?_, fun ⟨n, e, he, ha⟩ => h2 n e he (hb n e he) ha⟩, hfound⟩
  obtain ⟨n, -, hc⟩ := Option.bind_eq_some_iff.1 he
  exact ⟨n, e, hc, hfound e he⟩

/-! ## Examples -/

/-- `<p id="a"></p><p id="b"></p>`, and one whose id is bound to `c`. -/
def idDoc : Html := .mk "html" [] none [.mk "body" [] none [.mk "p" [.none "id" "a"] none [], .mk "p" [.none "id" "b"] none [], .mk "p" [.attribute "id" [.binder (path1 "c")]] none []]]

/-- The same without the bound one. -/
def plainIdDoc : Html := .mk "html" [] none [.mk "body" [] none [.mk "p" [.none "id" "a"] none [], .mk "p" [.none "id" "b"] none []]]

/-- `<p @id="a"></p>`: a bound attribute without binding. -/
def textIdDoc : Html := .mk "html" [] none [.mk "body" [] none [.mk "p" [.attribute "id" [.string "a"]] none []]]

def bareCss : Css := ⟨[], fun _ => none⟩

def idFrame (c : String) : Frame := ⟨orderId, ⟨1, (800, 600), []⟩, .obj [("c", .str c)]⟩

/-- The id of the element a lookup returns. -/
def App.foundId (a : App) (x : String) : Option (Option String) := (a.lookup x).map fun e => e.attrs "id"

def idCheck (doc : Html) (fs : List Frame) (P : App → Bool) : Bool :=
  match openApp fontPlatform 100 doc bareCss with
  | .error _ => false
  | .ok a => match a.evalRun fontPlatform 100 fs with
    | some (.ok (a1, _)) => P a1
    | _ => false

theorem idCheck_sound {doc : Html} {fs : List Frame} {P : App → Bool} (h : idCheck doc fs P = true) :
    ∃ a a' outs, openApp fontPlatform 100 doc bareCss = .ok a ∧ a.run fontPlatform 100 fs = .ok (a', outs) ∧ P a' = true := by
  unfold idCheck at h
  split at h
  · cases h
  · rename_i a ho
    split at h
    · rename_i a1 outs hr
      exact ⟨a, a1, outs, ho, App.evalRun_sound fs hr, h⟩
    · cases h

theorem plainId_body : docBody plainIdDoc = .mk "body" [] none [.mk "p" [.none "id" "a"] none [], .mk "p" [.none "id" "b"] none []] := rfl

theorem id_body : docBody idDoc = .mk "body" [] none [.mk "p" [.none "id" "a"] none [], .mk "p" [.none "id" "b"] none [],
    .mk "p" [.attribute "id" [.binder (path1 "c")]] none []] := rfl

theorem oneId_simple {tag : String} {bs : List ElementBinding} {cs : List Html} (ht : tag ≠ "link") (h1 : (bs.filter (·.givesId)).length ≤ 1)
    (h2 : ∀ text, .attribute "id" [.string text] ∉ bs) : (Html.mk tag bs none cs).OneId :=
  ⟨h1, h2, (by intro id bs h; simp [Html.asLink, Html.tag, ht] at h)⟩

/-- The conditions of `C22_programs_partial` are met by a document with a bound id. -/
theorem idDoc_one : OneIdDocument fontPlatform idDoc := by
  refine ⟨?_, everyNode_of 4 ?_ ?_ ?_⟩
  · rw [id_body]; exact oneId_simple (by decide) (by simp) (by simp)
  · rw [id_body]; simp [Html.depth]
  · rw [id_body]
    intro c hc
    simp only [Html.nodes, Html.children, List.flatMap_cons, List.flatMap_nil, List.append_nil, List.cons_append,
      List.nil_append, List.mem_cons, List.not_mem_nil, or_false] at hc
    rcases hc with rfl | rfl | rfl <;> exact oneId_simple (by decide) (by simp [List.filter, ElementBinding.givesId]) (by simp)
  · have : ((beforeBody idDoc.children).filterMap Html.definition).map Prod.snd = [] := rfl
    rw [this]
    intro t ht
    cases ht

theorem plainIdDoc_one : OneIdDocument fontPlatform plainIdDoc := by
  refine ⟨?_, everyNode_of 4 ?_ ?_ ?_⟩
  · rw [plainId_body]; exact oneId_simple (by decide) (by simp) (by simp)
  · rw [plainId_body]; simp [Html.depth]
  · rw [plainId_body]
    intro c hc
    simp only [Html.nodes, Html.children, List.flatMap_cons, List.flatMap_nil, List.append_nil, List.cons_append,
      List.nil_append, List.mem_cons, List.not_mem_nil, or_false] at hc
    rcases hc with rfl | rfl <;> exact oneId_simple (by decide) (by simp [List.filter, ElementBinding.givesId]) (by simp)
  · have : ((beforeBody plainIdDoc.children).filterMap Html.definition).map Prod.snd = [] := rfl
    rw [this]
    intro t ht
    cases ht

theorem plainIdDoc_never : NeverBound fontPlatform plainIdDoc "id" := by
  refine ⟨?_, everyNode_of 4 ?_ ?_ ?_⟩
  · rw [plainId_body]; simp [Html.BindsKey, Html.bindings]
  · rw [plainId_body]; simp [Html.depth]
  · rw [plainId_body]
    intro c hc
    simp only [Html.nodes, Html.children, List.flatMap_cons, List.flatMap_nil, List.append_nil, List.cons_append,
      List.nil_append, List.mem_cons, List.not_mem_nil, or_false] at hc
    rcases hc with rfl | rfl <;> simp [Html.BindsKey, Html.bindings]
  · have : ((beforeBody plainIdDoc.children).filterMap Html.definition).map Prod.snd = [] := rfl
    rw [this]
    intro t ht
    cases ht

/-- The conditions of `C22_static_ids` are met: of two elements with ids each is found, in a run of two frames. -/
theorem C22_example : OneIdDocument fontPlatform plainIdDoc ∧ NeverBound fontPlatform plainIdDoc "id" ∧
    ∃ a a' outs, openApp fontPlatform 100 plainIdDoc bareCss = .ok a ∧ a.run fontPlatform 100 [idFrame "x", idFrame "y"] = .ok (a', outs) ∧
      a'.foundId "a" = some (some "a") ∧ a'.foundId "b" = some (some "b") ∧ a'.foundId "c" = none := by
  refine ⟨plainIdDoc_one, plainIdDoc_never, ?_⟩
  obtain ⟨a, a', outs, ho, hr, h⟩ := idCheck_sound (doc := plainIdDoc) (fs := [idFrame "x", idFrame "y"])
    (P := fun a => decide (a.foundId "a" = some (some "a") ∧ a.foundId "b" = some (some "b") ∧ a.foundId "c" = none)) (by decide +kernel)
  exact ⟨a, a', outs, ho, hr, of_decide_eq_true h⟩

/-- **C22** finding: an id that was bound to a value before and no longer is still finds the element, which has another id now. The
document meets the condition of `C22_programs_partial`. -/
theorem C22_stale_program : OneIdDocument fontPlatform idDoc ∧
    ∃ a a' outs, openApp fontPlatform 100 idDoc bareCss = .ok a ∧ a.run fontPlatform 100 [idFrame "x", idFrame "y"] = .ok (a', outs) ∧
      a'.foundId "x" = some (some "y") := by
  refine ⟨idDoc_one, ?_⟩
  obtain ⟨a, a', outs, ho, hr, h⟩ := idCheck_sound (doc := idDoc) (fs := [idFrame "x", idFrame "y"])
    (P := fun a => decide (a.foundId "x" = some (some "y"))) (by decide +kernel)
  exact ⟨a, a', outs, ho, hr, of_decide_eq_true h⟩

/-- **C22** finding: an element whose id is written as a bound attribute without binding (`@id="a"`) has the id, and is not found. -/
theorem C22_text_id : ∃ a a' outs, openApp fontPlatform 100 textIdDoc bareCss = .ok a ∧ a.run fontPlatform 100 [idFrame "x"] = .ok (a', outs) ∧
    (∃ e, a'.screen.view.stage.tree.ctx 2 = some e ∧ e.attrs "id" = some "a") ∧ a'.lookup "a" = none := by
  obtain ⟨a, a', outs, ho, hr, h⟩ := idCheck_sound (doc := textIdDoc) (fs := [idFrame "x"])
    (P := fun a => (match a.screen.view.stage.tree.ctx 2 with | some e => decide (e.attrs "id" = some "a") | none => false) && (a.lookup "a").isNone) (by decide +kernel)
  simp only [Bool.and_eq_true, Option.isNone_iff_eq_none] at h
  refine ⟨a, a', outs, ho, hr, ?_, h.2⟩
  have h1 := h.1
  split at h1
  · rename_i e he
    exact ⟨e, he, of_decide_eq_true h1⟩
  · cases h1

end Verif
