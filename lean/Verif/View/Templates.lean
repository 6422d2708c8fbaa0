import Verif.Spec.Templates
import Verif.View.Halts
import Mathlib.Data.Set.Finite.Basic
import Mathlib.Data.Fintype.Order
/-!
# Templates and links (lemmas for C26, C61)
-/
namespace Verif

theorem linkParts_spec (bs : List ElementBinding) (id : Option String) :
    linkParts bs id = (((bs.filterMap hrefValue).getLast?).or id, bs.filter (fun b => (hrefValue b).isNone)) := by
  induction bs generalizing id with
  | nil => simp [linkParts]
  | cons b bs ih =>
    cases b with
    | none name value =>
      by_cases h : name = "href"
      · simp only [linkParts, h, if_true, ih]
        rw [List.filterMap_cons, List.filter_cons]
        simp only [hrefValue, if_true, Option.isNone_some, Bool.false_eq_true, if_false, List.getLast?_cons]
        cases (bs.filterMap hrefValue).getLast? <;> simp
      · simp only [linkParts, h, if_false, ih]
        rw [List.filterMap_cons, List.filter_cons]
        simp [hrefValue, h]
    | _ =>
      simp only [linkParts, ih]
      rw [List.filterMap_cons, List.filter_cons]
      simp [hrefValue]

theorem asLink_spec (c : Html) :
    c.asLink = c.target.map fun id => (id, c.bindings.filter (fun b => (hrefValue b).isNone)) := by
  unfold Html.asLink Html.target
  split
  · rw [linkParts_spec]
    simp only [Option.or_none]
    cases (c.bindings.filterMap hrefValue).getLast? <;> rfl
  · rfl

theorem resolveChild_spec (env : RenderEnv) (c : Html) :
    resolveChild env c = linkMeaning env.templates c := by
  unfold resolveChild linkMeaning
  rw [asLink_spec]
  cases c.target with
  | none => rfl
  | some id => rfl

theorem templateId_spec (h : Html) : templateId h.bindings = h.idOf := by
  unfold templateId Html.idOf
  have aux : ∀ (bs : List ElementBinding) (d : Option String),
      bs.foldl (fun id b => match b with
        | .none key value => if key = "id" then some value else id
        | _ => id) d
      = ((bs.filterMap fun b => match b with
        | .none key value => if key = "id" then some value else none
        | _ => none).getLast?).or d := by
    intro bs
    induction bs with
    | nil => intro d; simp
    | cons b bs ih =>
      intro d
      rw [List.foldl_cons, ih, List.filterMap_cons]
      cases b with
      | none key value =>
        by_cases hk : key = "id"
        · simp only [hk, if_true, List.getLast?_cons]
          generalize (List.filterMap _ bs).getLast? = o
          cases o <;> simp
        · simp [hk]
      | _ => simp
  have := aux h.bindings none
  rw [Option.or_none] at this
  exact this

theorem lookup_append {α β} [BEq α] (a b : List (α × β)) (k : α) :
    (a ++ b).lookup k = (a.lookup k).or (b.lookup k) := by
  induction a with
  | nil => simp
  | cons x a ih =>
    obtain ⟨x1, x2⟩ := x
    simp only [List.cons_append, List.lookup_cons, ih]
    cases k == x1 <;> simp

theorem collect_spec (l : List Html) (ts : SMap Html) :
    (∀ id, (collect l ts).1 id = (templateFor l id).or (ts id)) ∧
    (collect l ts).2 = (l.find? (fun h => h.tag = "body")).getD .empty := by
  induction l generalizing ts with
  | nil => simp [collect, templateFor, beforeBody]
  | cons h hs ih =>
    have hdef : ∀ id, h.tag = "template" →
        templateFor (h :: hs) id = (templateFor hs id).or ((match h.definition with
          | some d => [d]
          | none => []).lookup id) := by
      intro id ht
      unfold templateFor beforeBody
      rw [List.takeWhile_cons_of_pos (by simp [ht]), List.filterMap_cons]
      cases h.definition with
      | none => simp
      | some d => simp [lookup_append]
    by_cases ht : h.tag = "template"
    · have hb : ¬ (h.tag = "body") := by rw [ht]; decide
      have hfind : ((h :: hs).find? (fun h => h.tag = "body")) = hs.find? (fun h => h.tag = "body") := by
        rw [List.find?_cons_of_neg (by simpa using hb)]
      rw [hfind]
      unfold collect
      rw [if_pos ht, templateId_spec]
      split
      · rename_i id c hid hc
        obtain ⟨i1, i2⟩ := ih (ts.set ("#" ++ id) c)
        refine ⟨fun x => ?_, i2⟩
        rw [i1, hdef x ht]
        have : h.definition = some ("#" ++ id, c) := by
          unfold Html.definition; rw [if_pos ht, hid, hc]
        rw [this]
        simp only [List.lookup_cons, List.lookup_nil]
        cases templateFor hs x with
        | some t => simp
        | none =>
          by_cases hx : x = "#" ++ id
          · subst hx; simp
          · simp only [Option.none_or, SMap.set_other _ _ hx]
            have : (x == "#" ++ id) = false := by simpa using hx
            rw [this]; simp
      · rename_i hno
        obtain ⟨i1, i2⟩ := ih ts
        refine ⟨fun x => ?_, i2⟩
        rw [i1, hdef x ht]
        have : h.definition = none := by
          unfold Html.definition
          rw [if_pos ht]
          split
          · rename_i id c hid hc; exact absurd hc (fun hc => hno id c hid hc)
          · rfl
        rw [this]; simp
    · unfold collect
      rw [if_neg ht]
      by_cases hb : h.tag = "body"
      · rw [if_pos hb]
        refine ⟨fun x => ?_, ?_⟩
        · simp [templateFor, beforeBody, hb]
        · simp [hb]
      · rw [if_neg hb]
        obtain ⟨i1, i2⟩ := ih ts
        refine ⟨fun x => ?_, ?_⟩
        · rw [i1]
          unfold templateFor beforeBody
          rw [List.takeWhile_cons_of_pos (by simp [hb]), List.filterMap_cons]
          have : h.definition = none := by unfold Html.definition; rw [if_neg ht]
          rw [this]
        · rw [i2, List.find?_cons_of_neg (by simpa using hb)]

/-! ### Termination -/

/-- Everything in the place of the children of this template is rendered. -/
def TemplateRenders (env : RenderEnv) (id : String) : Prop :=
  ∀ t, env.templates id = some t → ∀ c ∈ t.children, ∀ c', resolveChild env c = .ok c' → Renders env c'

theorem children_render {env : RenderEnv} (h : Html)
    (hl : ∀ c, h.Below c → ∀ b, c.target = some b → TemplateRenders env b) :
    ∀ c ∈ h.children, ∀ c', resolveChild env c = .ok c' → Renders env c' := by
  induction h using html_rec with
  | h t bs tx cs ih =>
    intro c hc c' hr
    have hc' : c ∈ cs := hc
    rw [resolveChild_spec] at hr
    unfold linkMeaning at hr
    cases htg : c.target with
    | none =>
      rw [htg] at hr
      injection hr with hr
      subst hr
      exact renders_of_children c (ih c hc' (fun d hd b hb => hl d (.step hc hd) b hb))
    | some id =>
      rw [htg] at hr
      simp only at hr
      have hg := hl c (.child hc) id htg
      cases ht : env.templates id with
      | none => rw [ht] at hr; simp at hr
      | some t =>
        rw [ht] at hr
        injection hr with hr
        subst hr
        exact renders_of_children _ (hg t ht)

theorem templates_render {env : RenderEnv} (hfin : {id | (env.templates id).isSome}.Finite)
    (hno : NoSelfReference env.templates) (id : String) : TemplateRenders env id := by
  have : Finite {id | (env.templates id).isSome} := hfin
  let r : {id | (env.templates id).isSome} → {id | (env.templates id).isSome} → Prop :=
    fun x y => Relation.TransGen (Refers env.templates) y.1 x.1
  have : IsTrans _ r := ⟨fun a b c h1 h2 => Relation.TransGen.trans h2 h1⟩
  have : Std.Irrefl r := ⟨fun a h => hno a.1 h⟩
  have hwf : WellFounded r := Finite.wellFounded_of_trans_of_irrefl r
  have main : ∀ x : {id | (env.templates id).isSome}, TemplateRenders env x.1 := by
    intro x
    induction x using hwf.induction with
    | h x ih =>
      intro t ht
      refine children_render t ?_
      intro c hc b hb
      by_cases hs : (env.templates b).isSome
      · exact ih ⟨b, hs⟩ (.single ⟨t, ht, c, hc, hb⟩)
      · intro t' ht'; rw [ht'] at hs; simp at hs
  by_cases hs : (env.templates id).isSome
  · exact main ⟨id, hs⟩
  · intro t ht; rw [ht] at hs; simp at hs

theorem collect_finite (l : List Html) :
    {id | ((collect l (fun _ => none)).1 id).isSome}.Finite := by
  apply Set.Finite.subset (s := {id | id ∈ (((beforeBody l).filterMap Html.definition).map Prod.fst)})
  · exact List.finite_toSet _
  · intro id hid
    simp only [Set.mem_setOf_eq, (collect_spec l (fun _ => none)).1 id, Option.or_none] at hid
    unfold templateFor at hid
    obtain ⟨t, ht⟩ := Option.isSome_iff_exists.1 hid
    have aux : ∀ (l : List (String × Html)) k t, l.lookup k = some t → k ∈ l.map Prod.fst := by
      intro l
      induction l with
      | nil => simp
      | cons x l ih =>
        intro k t h
        rw [List.lookup_cons] at h
        split at h
        · rename_i hk; simp at hk; simp [hk]
        · exact List.mem_cons_of_mem _ (ih k t h)
    have := aux _ _ _ ht
    simpa using this

theorem body_renders {env : RenderEnv} (hfin : {id | (env.templates id).isSome}.Finite)
    (hno : NoSelfReference env.templates) (h : Html) : Renders env h :=
  renders_of_children h (children_render h (fun _ _ b _ => templates_render hfin hno b))

end Verif
