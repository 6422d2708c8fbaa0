import Verif.View.Opens
/-!
# C73-C75: the program as a whole
-/
namespace Verif
open Sheet (Stylesheet meaning)
open Written (Document)

variable {p : Platform}

/-! ## C73 -/

/-- **C73.** Opening a view from texts means opening the document and the stylesheet they are written for. -/
theorem C73_opens_as_written (p : Platform) {html : Html} {items : List CssItem} {t u : List Char} (ht : Document html t) (hu : Stylesheet items u) :
    ∃ F, ∀ fuel ≥ F, fromHtml p fuel (String.ofList t) (String.ofList u) = openApp p fuel html (meaning items) := by
  obtain ⟨F1, h1⟩ := C69_written_documents_are_read ht
  obtain ⟨F2, h2⟩ := C71_read_as_written hu
  refine ⟨max F1 F2, fun fuel hf => ?_⟩
  unfold fromHtml
  rw [h1 fuel (by omega)]
  simp only
  rw [h2 fuel (by omega)]

/-- **C73 (part).** If no template contains itself, every link is to a template, and no rule has the combinator
`+`, a view is opened. -/
theorem C73_opens_partial (p : Platform) {html : Html} {items : List CssItem} {t u : List Char} (ht : Document html t) (hu : Stylesheet items u)
    (hno : NoSelfReference (templateFor html.children)) (hl : LinksDefined html) (hp : ∀ s ∈ (meaning items).styles, s.NoPlus) :
    ∃ a F, ∀ fuel ≥ F, fromHtml p fuel (String.ofList t) (String.ofList u) = .ok a := by
  obtain ⟨F1, h1⟩ := C73_opens_as_written p ht hu
  obtain ⟨r, F2, h2, h3⟩ := openApp_settles p html (meaning items) hno hp
  rcases h3 with ⟨a, rfl⟩ | ⟨-, h3⟩
  · exact ⟨a, max F1 F2, fun fuel hf => (h1 fuel (by omega)).trans (h2 fuel (by omega))⟩
  · exact absurd hl h3

/-- The text is read as this document, given enough time. -/
def ReadsAs (text : String) (document : Html) : Prop := ∃ F, ∀ fuel ≥ F, readHtml fuel text = some (.ok document)

/-- The text is read as this stylesheet, given enough time. -/
def ReadsAsCss (text : String) (css : Css) : Prop := ∃ F, ∀ fuel ≥ F, readCss fuel text = some (.ok css)

/-- **C73 (part).** Opening whatever texts comes to an end, with a view or an error value: never with a panic. There
is an error value only if one of the texts is not a document or stylesheet, or if a link is to a template that is
not there. -/
theorem C73_opening_ends_partial (p : Platform) (html css : String) (hno : ∀ document, ReadsAs html document → NoSelfReference (templateFor document.children))
    (hp : ∀ sheet, ReadsAsCss css sheet → ∀ s ∈ sheet.styles, s.NoPlus) :
    ∃ r F, (∀ fuel ≥ F, fromHtml p fuel html css = r) ∧ ((∃ a, r = .ok a) ∨ r = .error .error ∧
      ((∀ document, ¬ ReadsAs html document) ∨ (∀ sheet, ¬ ReadsAsCss css sheet) ∨ ∃ document, ReadsAs html document ∧ ¬ LinksDefined document)) := by
  obtain ⟨r1, ⟨F1, h1⟩, hr1⟩ := C68_reading_ends html
  obtain ⟨r2, F2, h2, hr2⟩ := C70_stylesheet css
  match r1, h1, hr1 with
  | .error .panic, _, hr1 => exact absurd rfl hr1
  | .error .err, h1, _ =>
    refine ⟨.error .error, F1, fun fuel hf => by unfold fromHtml; rw [h1 fuel hf]; rfl, .inr ⟨rfl, .inl ?_⟩⟩
    rintro document ⟨F, hF⟩
    have := (h1 (max F F1) (by omega)).symm.trans (hF (max F F1) (by omega))
    cases this
  | .ok document, h1, _ =>
    match r2, h2, hr2 with
    | .error .panic, _, hr2 => exact absurd rfl hr2
    | .error .err, h2, _ =>
      refine ⟨.error .error, max F1 F2, fun fuel hf => ?_, .inr ⟨rfl, .inr (.inl ?_)⟩⟩
      · unfold fromHtml; rw [h1 fuel (by omega)]; simp only; rw [h2 fuel (by omega)]; rfl
      · rintro sheet ⟨F, hF⟩
        have := (h2 (max F F2) (by omega)).symm.trans (hF (max F F2) (by omega))
        cases this
    | .ok sheet, h2, _ =>
      obtain ⟨r, F3, h3, h4⟩ := openApp_settles p document sheet (hno _ ⟨F1, h1⟩) (hp _ ⟨F2, h2⟩)
      refine ⟨r, max F3 (max F1 F2), fun fuel hf => ?_, ?_⟩
      · unfold fromHtml; rw [h1 fuel (by omega)]; simp only; rw [h2 fuel (by omega)]
        exact h3 fuel (by omega)
      · rcases h4 with h4 | ⟨h4, h5⟩
        · exact .inl h4
        · exact .inr ⟨h4, .inr (.inr ⟨document, ⟨F1, h1⟩, h5⟩)⟩

/-! ## C42 -/

theorem kept_twin {σ : Render} {v v' : View} (h : Kept σ v) (ht : Twin v v') : Kept σ v' := by
  refine ⟨⟨?_, ?_, ?_, ?_⟩, ⟨?_, ?_⟩, ?_⟩
  · rw [ht.root, ht.body]; exact ht.tree.wf h.good.wf
  · rw [ht.vm]; exact h.good.bindings
  · intro r hr x
    rw [ht.root, ht.body]
    exact ht.tree.reactionOk (h.good.reactions r hr x)
  · intro r hr n i hp
    obtain ⟨e, tx, h1, h2, h3⟩ := h.good.texts r hr n i hp
    obtain ⟨e', g1, g2⟩ := ht.tree.there n e h1
    exact ⟨e', tx, g1, by rw [g2.text]; exact h2, h3⟩
  · rw [ht.tree.next]; exact h.defs.next
  · intro n
    rw [← h.defs.defs n]
    cases hc : v.stage.tree.ctx n with
    | none => rw [ht.tree.gone n hc]
    | some e =>
      obtain ⟨e', g1, g2⟩ := ht.tree.there n e hc
      rw [g1]
      simp only [Option.map_some, Element.defs, g2.children, g2.tag, g2.text, g2.attrsBindings]
  · intro n e he
    obtain ⟨e', h1, h2⟩ := h.attrs n e he
    obtain ⟨e'', g1, g2⟩ := ht.tree.there n e' h1
    exact ⟨e'', g1, fun k hk => by rw [g2.attrs]; exact h2 k hk⟩

theorem displayed_inSubtree {σ : Render} {v : View} {env : RenderEnv} {fuel : Nat} {h : Html} (hok : renderView env fuel h = .ok (v.root, v.body, σ)) (hk : Kept σ v)
    {n : NodeId} (hn : Displayed v.stage.tree v.root n) : n = v.root ∨ InSubtree σ.tree v.body n := by
  induction hn with
  | root => exact .inl rfl
  | @child q c hq hc ih =>
    have hpar := displayed_par hok rfl hk (.child hq hc)
    rw [(hk.good.wf.link q c).1 hc] at hpar
    rcases ih with rfl | ih
    · obtain ⟨-, -, hr, -⟩ := C27_fresh_tree hok
      have hv := renderView_ok hok
      have := (hv.wf.link _ _).2 hpar.symm
      rw [hr, List.mem_singleton] at this
      subst this
      exact .inr .here
    · exact .inr (.deeper hpar.symm ih)

theorem run_keeps {fuel : Nat} (fs : List Frame) {a a' : App} {outs : List Output} (h : a.run p fuel fs = .ok (a', outs)) : a'.kept = a.kept ∧ a'.css = a.css := by
  induction fs generalizing a outs with
  | nil => simp only [App.run, Except.ok.injEq, Prod.mk.injEq] at h; obtain ⟨rfl, -⟩ := h; exact ⟨rfl, rfl⟩
  | cons f fs ih =>
    obtain ⟨a1, out, rest, h1, h2, -⟩ := run_cons h
    obtain ⟨v, styled, tree, t', ui, -, -, -, -, rfl⟩ := update_parts h1
    have := ih h2
    exact this

/-- **C42 (part).** In every frame of every run of the program, the rules whose declarations are used for a
displayed element are exactly the rules of the stylesheet that match it, in stylesheet order. Missing: as in
`C42_rules_exact_partial`. -/
theorem C42_program_partial {fuel fuel' : Nat} {document : Html} {css : Css} {a a' : App} {outs : List Output} (ho : openApp p fuel document css = .ok a)
    {fs : List Frame} (hr : a.run p fuel' fs = .ok (a', outs)) {value : Json} {v : View} (hv : a'.screen.view.update p.inline value = .ok v)
    (hplus : ∀ s ∈ css.styles, s.NoPlus) {n : NodeId} (hn : Displayed v.stage.tree v.root n) (hroot : n ≠ v.root)
    (htag : ∀ path b, b ∈ v.vm.bindings path → b.params ≠ .tag n "class" ∧ b.params ≠ .tag n "id")
    (hup : ∀ s ∈ css.styles, s.HasChild → ∀ m, Ancestor v.stage.tree m n → ∀ k, BindsAttr v.vm.bindings m k → ¬ s.Tests k) :
    applied p.checks viewPseudo v.stage.tree n (a'.kept n) = .ok (css.styles.filter (matchesNow p.checks viewPseudo v.stage.tree n)) := by
  obtain ⟨σ, hop⟩ := openApp_opened ho
  have hli := Living.opened ho
  have hses := run_session fs hli.session hr
  obtain ⟨v0, hr0, htw0⟩ := (session_ok hses).twin
  obtain ⟨v2, hr2, htw, -⟩ := twin_update hr0 htw0 hv
  obtain ⟨σ', hσ', hk0⟩ := reached_kept hr2
  have hk := kept_twin hk0 htw
  obtain ⟨v3, h3, htw3⟩ := run_twin fs (.opened hop.view) ⟨rfl, rfl, rfl, rfl, Tree.Related.refl Element.SameForm.refl _⟩ hli.session hr
  rw [← htw.root, ← htw.body] at hσ'
  have hroots : v.root = a.screen.view.root ∧ v.body = a.screen.view.body := by
    have key : ∀ {w : View}, Reached p.translate p.inline p.transformers fuel document w → w.root = a.screen.view.root ∧ w.body = a.screen.view.body := by
      intro w hw
      obtain ⟨σ1, h1, -⟩ := reached_kept hw
      rw [hop.rendered] at h1
      simp only [Except.ok.injEq, Prod.mk.injEq] at h1
      exact ⟨h1.1.symm, h1.2.1.symm⟩
    rw [htw.root, htw.body]
    exact key hr2
  have hσσ : σ' = σ := by
    rw [hop.rendered] at hσ'
    simp only [Except.ok.injEq, Prod.mk.injEq] at hσ'
    exact hσ'.2.2.symm
  subst hσσ
  obtain ⟨e0, l, g1, g2, g3⟩ := kept_rules_exact (checks := p.checks) (pc := viewPseudo) hk css.styles hplus hn htag hup hσ'
  have hin := (displayed_inSubtree hσ' hk hn).resolve_left hroot
  rw [hroots.2] at hin
  obtain ⟨e1, k1, k2⟩ := (keepRules_spec (renderView_ok hop.rendered).wf _ hop.kept).2 n hin
  rw [k1] at g1; injection g1 with g1; subst g1
  rw [k2] at g2; injection g2 with g2
  rw [(run_keeps fs hr).1, g2]
  exact g3

/-! ## C74 -/

/-- **C74.** However a view is updated, the result is a session, so that everything said about sessions (C28-C38)
holds of it. -/
theorem C74_runs_are_sessions {fuel fuel' : Nat} {document : Html} {css : Css} {a a' : App} {outs : List Output} (ho : openApp p fuel document css = .ok a)
    {fs : List Frame} (hr : a.run p fuel' fs = .ok (a', outs)) :
    Session p.translate p.inline p.transformers fuel document a'.screen ∧
      ∀ (f : Frame) a'' out, a'.update p fuel' f.order f.input f.value = .ok (a'', out) → a'.screen.Updates p.inline f.value f.input.events a''.screen out := by
  have hs := run_session fs (Living.opened ho).session hr
  exact ⟨hs, fun f a'' out hu => update_refines hs hu⟩

theorem living_run {fuel fuel' : Nat} {document : Html} (fs : List Frame) {a a' : App} {outs : List Output} (h : Living p fuel document a)
    (hr : a.run p fuel' fs = .ok (a', outs)) : Living p fuel document a' := by
  induction fs generalizing a outs with
  | nil => simp only [App.run, Except.ok.injEq, Prod.mk.injEq] at hr; obtain ⟨rfl, -⟩ := hr; exact h
  | cons f fs ih =>
    obtain ⟨a1, out, rest, h1, h2, -⟩ := run_cons hr
    exact ih (h.updated h1) h2

/-- **C74.** An update never returns an error value, whatever the values, input and orders of hash maps of this update
and those before. -/
theorem C74_no_error_values {fuel fuel' fuel'' : Nat} {document : Html} {css : Css} {a a' : App} {outs : List Output} (ho : openApp p fuel document css = .ok a)
    {fs : List Frame} (hr : a.run p fuel' fs = .ok (a', outs)) (order : FrameOrder) (input : Input) (value : Json) :
    a'.update p fuel'' order input value ≠ .error .error :=
  (living_run fs (Living.opened ho) hr).no_error order input value

/-- **C74 (part).** If the value fits and nothing in the styles hangs or panics, an update comes back. -/
theorem C74_update_succeeds_partial {fuel fuel' : Nat} {document : Html} {css : Css} {a a' : App} {outs : List Output} (ho : openApp p fuel document css = .ok a)
    {fs : List Frame} (hr : a.run p fuel' fs = .ok (a', outs)) {s : Shape} (hok : s.Ok) (hno : s.NoArrArr) (hs : HasShape s a.screen.view.vm.model)
    (hfs : ∀ f ∈ fs, Fits s f.value) {f : Frame} (hf : Fits s f.value) (hfair : f.order.Fair)
    (htame : ∀ v, a'.screen.view.update p.inline f.value = .ok v → Tame (a'.env p 0 f.order f.input.time) v.stage.tree) :
    ∃ a'' out F, ∀ fuel ≥ F, a'.update p fuel f.order f.input f.value = .ok (a'', out) := by
  have hl := Living.opened ho
  obtain ⟨σ, hop⟩ := openApp_opened ho
  have htw : Twin a.screen.view a.screen.view := ⟨rfl, rfl, rfl, rfl, Tree.Related.refl Element.SameForm.refl _⟩
  obtain ⟨v1, h1, htw1⟩ := run_twin fs (.opened hop.view) htw hl.session hr
  rcases openView_cases (inline := p.inline) p.translate p.transformers fuel document with ⟨v', σ1, r, b, h', -, hopd⟩ | h' | ⟨id, h'⟩
  · rw [hop.view] at h'; injection h' with h'; subst h'
    obtain ⟨v2, h2, h3⟩ := follows_updates (inline := p.inline) (follows_open hopd hok hno hs) (fs.map (·.value)) (by
      intro w hw
      obtain ⟨f, hf, rfl⟩ := List.mem_map.1 hw
      exact hfs f hf)
    rw [h1] at h2; injection h2 with h2; subst h2
    obtain ⟨v3, h4, -⟩ := follows_update (inline := p.inline) h3 hf
    obtain ⟨v, hv⟩ := twin_succeeds (reached_updates _ (.opened hop.view) h1) htw1 h4
    exact (living_run fs hl hr).update_succeeds hfair hv (htame v hv)
  · rw [hop.view] at h'; cases h'
  · rw [hop.view] at h'; cases h'

/-- **C74 (part).** A view whose stylesheet and inline styles are smooth, animations and transitions included, can be
updated as often as one likes: with values that fit its shape every sequence of updates comes back. Inline styles may be
bound. -/
theorem C74_runs_forever_partial {fuel : Nat} {document : Html} {css : Css} {a : App} (ho : openApp p fuel document css = .ok a)
    {used : PropertyKey → Prop} {rank : String → Nat} (hcss : css.Smooth used rank) {s : Shape} (hok : s.Ok) (hno : s.NoArrArr) (hs : HasShape s a.screen.view.vm.model)
    (fs : List Frame) (hd : SmoothStyles p used rank document a (fs.map (·.value))) (hf : ∀ f ∈ fs, f.order.Fair ∧ Fits s f.value) :
    ∃ a' outs F, outs.length = fs.length ∧ ∀ fuel ≥ F, a.run p fuel fs = .ok (a', outs) := by
  have hst := Steady.opened ho hcss (values := fs.map (·.value) ++ []) (by rw [List.append_nil]; exact hd.elim (fun h => h.styles ho _) id) hok hno hs
  obtain ⟨a', outs, F, h, -⟩ := hst.run fs hf
  refine ⟨a', outs, F, ?_, h⟩
  have := h F le_rfl
  clear h hf hs ho hst hd
  induction fs generalizing a outs with
  | nil => simp only [App.run, Except.ok.injEq, Prod.mk.injEq] at this; obtain ⟨-, rfl⟩ := this; rfl
  | cons f fs ih =>
    obtain ⟨a1, out, rest, h1, h2, rfl⟩ := run_cons this
    simp [ih rest h2]

/-! ## C75 -/

theorem draw_form {t t' : Tree} (h : SameForm t t') (d : Nat) : ∀ n, t'.draw d n = t.draw d n := by
  induction d with
  | zero => intro n; rfl
  | succ d ih =>
    intro n
    unfold Tree.draw
    cases hc : t.ctx n with
    | none => rw [h.gone n hc]; rfl
    | some e =>
      obtain ⟨e', h1, h2⟩ := h.there n e hc
      rw [h1]
      have : t'.draw d = t.draw d := funext ih
      simp only [Option.bind_some, h2.node, h.kids, this, h2.text, h2.tag, h2.attrs]

/-- **C75 (part).** After any run of the program, whatever the styles, times, sizes of the window, input and orders
of hash maps, walking over the view from its body gives the tree the template describes for the last value. -/
theorem C75_run_shows_partial {fuel fuel' : Nat} {document : Html} {css : Css} {a a' : App} {outs : List Output} (ho : openApp p fuel document css = .ok a)
    {fs : List Frame} {last : Frame} (hr : a.run p fuel' (fs ++ [last]) = .ok (a', outs)) {s : Shape} (hok : s.Ok) (hno : s.NoArrArr)
    (hs : HasShape s a.screen.view.vm.model) (hf : ∀ f ∈ fs ++ [last], Fits s f.value)
    (hd : EveryNode (docEnv p.translate p.inline document)
      (fun c => DistinctAliases (docEnv p.translate p.inline document) c ∧ LoopNameFresh c) (docBody document))
    (hc : Consistent (mentionedPaths (mentions (docEnv p.translate p.inline document) fuel (fun _ => none) (docBody document))))
    (hsteady : SteadyArrays s (fs.map (·.value)) last.value) {shown : Shown}
    (hx : Scene.present ⟨docEnv p.translate p.inline document, p.transformers, last.value, false⟩ fuel (fun _ => none) (docBody document) = some shown)
    {d : Nat} (hdepth : fuel < d) : a'.screen.view.draw d = some shown := by
  have hl := Living.opened ho
  obtain ⟨σ, hop⟩ := openApp_opened ho
  have htw : Twin a.screen.view a.screen.view := ⟨rfl, rfl, rfl, rfl, Tree.Related.refl Element.SameForm.refl _⟩
  obtain ⟨v, h1, htw1⟩ := run_twin (fs ++ [last]) (.opened hop.view) htw hl.session hr
  rw [List.map_append] at h1
  have hfit : FittingView p.translate p.inline p.transformers fuel document s (fs.map (·.value) ++ [last.value]) a.screen.view v :=
    ⟨hop.view, hok, hno, hs, by
      intro w hw
      rw [← List.map_singleton (f := Frame.value), ← List.map_append] at hw
      obtain ⟨f, hf', rfl⟩ := List.mem_map.1 hw
      exact hf f hf', h1⟩
  rw [← C65_display_partial hfit hd hc hsteady false (by simp) hx hdepth]
  unfold View.draw
  rw [htw1.body]
  exact draw_form htw1.tree d _

/-- **C75 (part).** From the texts to the display: a document and a stylesheet are written as texts; the program opens
them, and after any number of updates with fitting values that give the elements smooth inline styles, at whatever times, with whatever input, it shows what the
template describes for the last value. -/
theorem C75_texts_to_display_partial {html : Html} {items : List CssItem} {t u : List Char} (ht : Document html t) (hu : Stylesheet items u)
    (hself : NoSelfReference (templateFor html.children)) (hl : LinksDefined html) {used : PropertyKey → Prop} {rank : String → Nat}
    (hcss : (meaning items).Smooth used rank) :
    ∃ a F, (∀ fuel ≥ F, fromHtml p fuel (String.ofList t) (String.ofList u) = .ok a) ∧
      ∀ (s : Shape), s.Ok → s.NoArrArr → HasShape s a.screen.view.vm.model →
      ∀ (fs : List Frame) (last : Frame), (∀ f ∈ fs ++ [last], f.order.Fair ∧ Fits s f.value) →
        SmoothStyles p used rank html a ((fs ++ [last]).map (·.value)) →
        ∃ a' outs F', outs.length = fs.length + 1 ∧ (∀ fuel ≥ F', a.run p fuel (fs ++ [last]) = .ok (a', outs)) ∧
          (EveryNode (docEnv p.translate p.inline html)
              (fun c => DistinctAliases (docEnv p.translate p.inline html) c ∧ LoopNameFresh c) (docBody html) →
            SteadyArrays s (fs.map (·.value)) last.value →
            ∀ depth ≥ F, Consistent (mentionedPaths (mentions (docEnv p.translate p.inline html) depth (fun _ => none) (docBody html))) →
            ∀ shown, Scene.present ⟨docEnv p.translate p.inline html, p.transformers, last.value, false⟩ depth (fun _ => none) (docBody html) = some shown →
            ∀ d > depth, a'.screen.view.draw d = some shown) := by
  obtain ⟨F1, h1⟩ := C73_opens_as_written p ht hu
  obtain ⟨a, F2, h2⟩ := C73_opens_partial p ht hu hself hl (fun s hs => (hcss.rules s hs).1)
  refine ⟨a, max F1 F2, fun fuel hf => h2 fuel (by omega), ?_⟩
  intro s hok hno hs fs last hf hpd
  have hopen : ∀ fuel ≥ max F1 F2, openApp p fuel html (meaning items) = .ok a := fun fuel hf => by
    rw [← h1 fuel (by omega)]; exact h2 fuel (by omega)
  obtain ⟨a', outs, F, hlen, hrun⟩ := C74_runs_forever_partial (hopen _ le_rfl) hcss hok hno hs (fs ++ [last]) hpd hf
  refine ⟨a', outs, F, by simpa using hlen, hrun, ?_⟩
  intro hd hst depth hdep hc shown hx d hdd
  exact C75_run_shows_partial (hopen depth hdep) (hrun F le_rfl) hok hno hs (fun f hf' => (hf f hf').2) hd hc hst hx hdd

/-! ## C76 -/

/-- The box in which a view is laid out is as large as the window. -/
def App.Fills (a : App) (window : Rat × Rat) : Prop :=
  (a.layouts a.screen.view.root).width = .length window.1 ∧ (a.layouts a.screen.view.root).height = .length window.2

/-- From one frame to the next the window either keeps its size or changes it in both directions. -/
def ResizedInBoth (f g : Frame) : Prop :=
  f.input.viewport = g.input.viewport ∨ f.input.viewport.1 ≠ g.input.viewport.1 ∧ f.input.viewport.2 ≠ g.input.viewport.2

theorem update_rootLayout {fuel fuel' : Nat} {document : Html} {a a' : App} (h : Living p fuel document a) {order : FrameOrder} {input : Input} {value : Json} {out : Output}
    (hu : a.update p fuel' order input value = .ok (a', out)) :
    a'.screen.view.root = a.screen.view.root ∧ a'.layouts a'.screen.view.root = resizeRoot input.viewport (a.layouts a.screen.view.root) := by
  obtain ⟨v, styled, tree, t', ui, h1, h2, -, -, rfl⟩ := update_parts hu
  obtain ⟨wf, -, hb, -⟩ := h.bound h1
  have hr := (update_root h1).1
  refine ⟨hr, ?_⟩
  have hl := linked_of_wf wf
  have hfr := (styleTree_spec (s := ⟨v.stage.tree, upd a.layouts v.root (resizeRoot input.viewport (a.layouts v.root))⟩) fuel' hl h2).1
  have hlt := hl.older _ _ hb
  show styled.layouts v.root = _
  rw [hfr.layouts v.root (fun hi => by have := InSubtree.le hl hi; unfold NodeId at *; omega)]
  show upd a.layouts v.root _ v.root = _
  rw [upd_same, hr]

theorem fills_resized {l : LayoutStyle} {old new : Rat × Rat} (h1 : l.width = .length old.1) (h2 : l.height = .length old.2) (h : old = new ∨ old.1 ≠ new.1 ∧ old.2 ≠ new.2) :
    (resizeRoot new l).width = .length new.1 ∧ (resizeRoot new l).height = .length new.2 := by
  unfold resizeRoot
  rcases h with rfl | ⟨h3, h4⟩
  · rw [if_neg (by rw [h1, h2]; simp)]; exact ⟨h1, h2⟩
  · rw [if_pos (by rw [h1, h2]; simp [h3, h4])]; exact ⟨rfl, rfl⟩

theorem fills_run {fuel fuel' : Nat} {document : Html} (fs : List Frame) {f : Frame} {a a' : App} {outs : List Output} (hl : Living p fuel document a)
    (h : a.Fills f.input.viewport) (hc : List.IsChain ResizedInBoth (f :: fs)) (hr : a.run p fuel' fs = .ok (a', outs)) :
    a'.Fills ((f :: fs).getLast (by simp)).input.viewport := by
  induction fs generalizing f a outs with
  | nil => simp only [App.run, Except.ok.injEq, Prod.mk.injEq] at hr; obtain ⟨rfl, -⟩ := hr; exact h
  | cons g fs ih =>
    obtain ⟨a1, out, rest, h1, h2, -⟩ := run_cons hr
    obtain ⟨e1, e2⟩ := update_rootLayout hl h1
    rw [List.isChain_cons_cons] at hc
    have hf : a1.Fills g.input.viewport := by
      have := fills_resized h.1 h.2 hc.1
      unfold App.Fills
      rw [e2]; exact this
    have := ih (hl.updated h1) hf hc.2 h2
    simpa using this

/-- **C76 (part).** After every update the view is laid out for the size of the window given with that update, if the
window never changes its width alone or its height alone. -/
theorem C76_fills_window_partial {fuel fuel' : Nat} {document : Html} {css : Css} {a a' : App} {outs : List Output} (ho : openApp p fuel document css = .ok a)
    {fs : List Frame} {last : Frame} (hr : a.run p fuel' (fs ++ [last]) = .ok (a', outs)) (hc : List.IsChain ResizedInBoth (fs ++ [last])) :
    a'.Fills last.input.viewport := by
  have hl := Living.opened ho
  obtain ⟨σ, hop⟩ := openApp_opened ho
  have hfresh : a.layouts a.screen.view.root = {} := by
    rw [hop.layouts]
    have hv := renderView_ok hop.rendered
    have hpar : σ.tree.par a.screen.view.root = none := by
      cases hq : σ.tree.par a.screen.view.root with
      | none => rfl
      | some q =>
        have hlt := (linked_of_wf hv.wf).older _ _ hq
        rw [hv.rootIs] at hlt
        exact absurd hlt (Nat.not_lt_zero _)
    simp [freshLayouts, hpar]
  obtain ⟨f, rest, hfr⟩ : ∃ f rest, fs ++ [last] = f :: rest := by cases fs <;> simp
  have hlast : ((f :: rest).getLast (by simp)) = last := by
    have : (f :: rest).getLast? = some last := by rw [← hfr]; simp
    rw [List.getLast?_eq_some_getLast (by simp)] at this
    simpa using this
  rw [hfr] at hr hc
  obtain ⟨a1, out, outs', h1, h2, -⟩ := run_cons hr
  obtain ⟨e1, e2⟩ := update_rootLayout hl h1
  have hf : a1.Fills f.input.viewport := by
    unfold App.Fills
    rw [e2, hfresh]
    simp [resizeRoot]
  have := fills_run rest (hl.updated h1) hf hc h2
  rwa [hlast] at this

end Verif
