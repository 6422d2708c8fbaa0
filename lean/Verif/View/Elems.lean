import Verif.View.History
/-!
# Effects of reactions on texts and attributes
-/
namespace Verif

/-- What a reaction does to the text of element `n`. -/
def textStep (n : NodeId) (r : Reaction) (t : Option TextContent) : Option TextContent :=
  match r with
  | .type m i x => if m = n then t.map (·.set i x) else t
  | _ => t

/-- What a reaction does to the bound attributes of element `n`. -/
def bindStep (n : NodeId) (r : Reaction) (b : SMap TextContent) : SMap TextContent :=
  match r with
  | .bind m k i x => if m = n then fun k' => if k' = k then (b k).map (·.set i x) else b k' else b
  | _ => b

/-- What a reaction does to the attributes of element `n` with bound attributes `b`. -/
def attrStep (n : NodeId) (r : Reaction) (b : SMap TextContent) (a : SMap String) : SMap String :=
  match r with
  | .tag m k v => if m = n then (if v then a.set k k else a.del k) else a
  | .bind m k i x =>
    if m = n then fun k' => if k' = k then (b k).map (fun t => (t.set i x).toString) else a k' else a
  | _ => a

theorem updateTree_elem {inline} {s s' : Stage} {root body : NodeId} (h : s.tree.Wf root body)
    {r : Reaction} (hr : ReactionOk s.tree root body r) (hu : updateTree inline s r = .ok s')
    {n : NodeId} {e : Element} (he : s.tree.ctx n = some e) :
    ∃ e', s'.tree.ctx n = some e' ∧ e'.text = textStep n r e.text ∧
      e'.attrsBindings = bindStep n r e.attrsBindings ∧ e'.attrs = attrStep n r e.attrsBindings e.attrs ∧
      (e'.listeners, e'.state) = (e.listeners, e.state) := by
  cases r with
  | type m i x =>
    obtain ⟨em, hem, ht⟩ := hr
    obtain ⟨tx, htx⟩ := Option.isSome_iff_exists.1 ht
    simp only [updateTree, hem, htx, Except.ok.injEq] at hu
    subst hu
    by_cases hm : m = n
    · subst hm
      rw [he] at hem; injection hem with hem; subst hem
      exact ⟨_, upd_same _ _ _, by simp [textStep, htx], rfl, rfl, rfl⟩
    · exact ⟨e, by simp [Tree.setCtx, upd_other _ _ (Ne.symm hm), he], by simp [textStep, hm], rfl, rfl, rfl⟩
  | reattach p m v =>
    obtain ⟨K, par', h1, -⟩ := reattach_effect h hr
    simp only [updateTree, h1, bind, Except.bind, Except.ok.injEq] at hu
    subst hu
    exact ⟨e, he, rfl, rfl, rfl, rfl⟩
  | «repeat» p i k j =>
    obtain ⟨par', h1, -⟩ := repeat_effect h hr
    simp only [updateTree, h1, bind, Except.bind, Except.ok.injEq] at hu
    subst hu
    exact ⟨e, he, rfl, rfl, rfl, rfl⟩
  | tag m k b =>
    obtain ⟨em, hem⟩ := Option.isSome_iff_exists.1 hr
    simp only [updateTree, Tree.elem, hem, bind, Except.bind, Except.ok.injEq] at hu
    subst hu
    by_cases hm : m = n
    · subst hm
      rw [he] at hem; injection hem with hem; subst hem
      exact ⟨_, upd_same _ _ _, rfl, rfl, by simp [attrStep], rfl⟩
    · exact ⟨e, by simp [Tree.setCtx, upd_other _ _ (Ne.symm hm), he], rfl, rfl, by simp [attrStep, hm], rfl⟩
  | bind m k i x =>
    obtain ⟨hmr, em, hem, ha⟩ := hr
    obtain ⟨att, hatt⟩ := Option.isSome_iff_exists.1 ha
    obtain ⟨s1, h1, -, -, -, -, ⟨e1, g1, g2, g3, g4, g5, -⟩, hother⟩ :=
      bindReact_ok (inline := inline) (span := i) (text := x) h hmr hem hatt
    simp only [updateTree, h1, Except.ok.injEq] at hu
    subst hu
    by_cases hm : m = n
    · subst hm
      rw [he] at hem; injection hem with hem; subst hem
      refine ⟨e1, g1, by simp [textStep, g4], ?_, ?_, g5⟩
      · rw [g3]; funext k'; simp [bindStep, SMap.set, hatt]
      · rw [g2]; funext k'; simp [attrStep, SMap.set, hatt]
    · obtain ⟨bg, hbg⟩ := hother n (Ne.symm hm)
      refine ⟨{ e with backgrounds := bg e.backgrounds }, by rw [hbg, he]; rfl, by simp [textStep], by simp [bindStep, hm], by simp [attrStep, hm], rfl⟩

theorem updateTree_identified {inline} {s s' : Stage} {root body : NodeId} (h : s.tree.Wf root body)
    {r : Reaction} (hr : ReactionOk s.tree root body r) (hu : updateTree inline s r = .ok s') :
    (∃ m i x e att, r = .bind m "id" i x ∧ s.tree.ctx m = some e ∧ e.attrsBindings "id" = some att ∧
        s'.identified = s.identified.set (att.set i x).toString m) ∨
    ((∀ m i x, r ≠ .bind m "id" i x) ∧ s'.identified = s.identified) := by
  cases r with
  | type m i x =>
    obtain ⟨em, hem, ht⟩ := hr
    obtain ⟨tx, htx⟩ := Option.isSome_iff_exists.1 ht
    simp only [updateTree, hem, htx, Except.ok.injEq] at hu
    subst hu; right; exact ⟨by intros; simp, rfl⟩
  | reattach p m v =>
    obtain ⟨K, par', h1, -⟩ := reattach_effect h hr
    simp only [updateTree, h1, bind, Except.bind, Except.ok.injEq] at hu
    subst hu; right; exact ⟨by intros; simp, rfl⟩
  | «repeat» p i k j =>
    obtain ⟨par', h1, -⟩ := repeat_effect h hr
    simp only [updateTree, h1, bind, Except.bind, Except.ok.injEq] at hu
    subst hu; right; exact ⟨by intros; simp, rfl⟩
  | tag m k b =>
    obtain ⟨em, hem⟩ := Option.isSome_iff_exists.1 hr
    simp only [updateTree, Tree.elem, hem, bind, Except.bind, Except.ok.injEq] at hu
    subst hu; right; exact ⟨by intros; simp, rfl⟩
  | bind m k i x =>
    obtain ⟨hmr, em, hem, ha⟩ := hr
    obtain ⟨att, hatt⟩ := Option.isSome_iff_exists.1 ha
    obtain ⟨s1, h1, -, -, -, hid, -⟩ :=
      bindReact_ok (inline := inline) (span := i) (text := x) h hmr hem hatt
    simp only [updateTree, h1, Except.ok.injEq] at hu
    subst hu
    by_cases hk : k = "id"
    · subst hk
      left; exact ⟨m, i, x, em, att, rfl, hem, hatt, by rw [hid]; simp⟩
    · right; exact ⟨by intro m' i' x' e; injection e; contradiction, by rw [hid]; simp [hk]⟩

end Verif
