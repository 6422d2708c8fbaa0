import Verif.View.Inline
/-!
# Views that can be updated forever (lemmas for C73, C74)
-/
namespace Verif

variable {p : Platform}

theorem smoothStyle_calm (inline : String → Option (List Declaration)) (used : PropertyKey → Prop) (rank : String → Nat) :
    Html.SmoothStyle inline used rank = CalmHtml inline (smoothManner used rank).strict := by
  funext h
  unfold Html.SmoothStyle CalmHtml
  refine propext (forall₂_congr fun b _ => ?_)
  cases b with
  | «attribute» key spans => exact ⟨.inr, fun h => h.resolve_left id⟩
  | _ => exact Iff.rfl

/-- A document without bound inline styles, all of them smooth. -/
theorem SmoothDocument.styles {fuel : Nat} {document : Html} {css : Css} {a : App} (ho : openApp p fuel document css = .ok a) {used : PropertyKey → Prop} {rank : String → Nat}
    (hd : SmoothDocument p used rank document) (values : List Json) : a.screen.view.InlineStyles p.inline (fun _ => SmoothBlock used rank) values := by
  unfold SmoothDocument at hd
  rw [smoothStyle_calm] at hd
  exact static_styles (G := smoothManner used rank) ho hd values

/-! ## Updating -/

/-- What holds of a view between updates, whatever its styles. -/
structure Living (p : Platform) (fuel : Nat) (document : Html) (a : App) : Prop where
  session : Session p.translate p.inline p.transformers fuel document a.screen
  kids : a.screen.view.stage.tree.kids a.screen.view.root = [a.screen.view.body]

theorem Living.opened {fuel : Nat} {document : Html} {css : Css} {a : App} (h : openApp p fuel document css = .ok a) : Living p fuel document a := by
  obtain ⟨σ, h⟩ := openApp_opened h
  refine ⟨?_, openApp_kids h⟩
  have := Session.opened h.view
  rw [← h.ui] at this
  exact this

/-- What updating the bindings does to the links of the root, and that it needs no more than an update of the twin. -/
theorem twin_kids {translate inline tr fuel document} {v0 v v1 : View} (hr : Reached translate inline tr fuel document v0)
    (h : Twin v0 v) {value : Json} (hu : v.update inline value = .ok v1) :
    v1.stage.tree.kids v1.root = v.stage.tree.kids v.root ∧ ∀ G : Manner, (G.free → ∀ b, G.block b) → v.stage.tree.Calm G → v1.stage.tree.Calm G := by
  obtain ⟨regs, hg⟩ := reached_good hr
  unfold View.update at hu
  cases hb : v.vm.bind value with
  | none => rw [hb] at hu; simp at hu
  | some q =>
    obtain ⟨vm, rs⟩ := q
    rw [hb] at hu
    simp only at hu
    rw [h.vm] at hb
    obtain ⟨stage, a1, a2, a3, a4⟩ := viewGood_update (inline := inline) hg value hb
    obtain ⟨stage1, b1, b2, b3⟩ := updateTrees_form rs h.tree h.identified a1
    rw [b1] at hu
    simp only [Except.ok.injEq] at hu
    subst hu
    have hw := h.tree.wf hg.wf
    have hrs := fun r hr => h.tree.reactionOk (a4 r hr)
    refine ⟨?_, fun G h hG => (updateTrees_calm h rs hw hrs b1 hG).1⟩
    show stage1.tree.kids v.root = _
    rw [h.root]
    exact updateTrees_rootKids rs hw hrs b1

theorem twin_succeeds {translate inline tr fuel document} {v0 v v2 : View} (hr : Reached translate inline tr fuel document v0)
    (h : Twin v0 v) {value : Json} (hu : v0.update inline value = .ok v2) : ∃ v1, v.update inline value = .ok v1 := by
  unfold View.update at hu ⊢
  rw [h.vm]
  cases hb : v0.vm.bind value with
  | none => rw [hb] at hu; simp at hu
  | some q =>
    obtain ⟨vm, rs⟩ := q
    rw [hb] at hu
    simp only at hu ⊢
    split at hu
    · cases hu
    · rename_i stage hs
      obtain ⟨stage1, b1, -⟩ := updateTrees_form rs h.tree h.identified hs
      rw [b1]
      exact ⟨_, rfl⟩

/-- The bindings of a living view either take a value or panic. -/
theorem Living.bindings {fuel : Nat} {document : Html} {a : App} (h : Living p fuel document a) (value : Json) :
    (∃ v, a.screen.view.update p.inline value = .ok v) ∨ a.screen.view.update p.inline value = .error .panic := by
  obtain ⟨v0, hr, htw⟩ := (session_ok h.session).twin
  obtain ⟨regs, hg⟩ := reached_good hr
  cases hb : v0.vm.bind value with
  | none =>
    right
    unfold View.update
    rw [htw.vm, hb]
  | some q =>
    obtain ⟨vm, rs⟩ := q
    obtain ⟨stage, a1, a2, a3, a4⟩ := viewGood_update (inline := p.inline) hg value hb
    exact .inl (twin_succeeds hr htw a2)

/-- A living view whose bindings take the value: the tree before styling. -/
theorem Living.bound {fuel : Nat} {document : Html} {a : App} (h : Living p fuel document a) {value : Json} {v : View}
    (hv : a.screen.view.update p.inline value = .ok v) :
    v.stage.tree.Wf v.root v.body ∧ v.stage.tree.kids v.root = [v.body] ∧ v.stage.tree.par v.body = some v.root ∧ (v.stage.tree.ctx v.body).isSome := by
  obtain ⟨v0, hr, htw⟩ := (session_ok h.session).twin
  obtain ⟨v2, -, -, e1, e2, wf, -⟩ := twin_update hr htw hv
  have hk := (twin_kids hr htw hv).1
  rw [h.kids, ← e2] at hk
  have hm : v.body ∈ v.stage.tree.kids v.root := by rw [hk]; simp
  exact ⟨wf, hk, (wf.link _ _).1 hm, (wf.slotsYounger _ _ (wf.sub _ _ hm)).2.2⟩

/-- Updates keep a view alive. -/
theorem Living.updated {fuel fuel' : Nat} {document : Html} {a a' : App} (h : Living p fuel document a) {order : FrameOrder} {input : Input} {value : Json} {out : Output}
    (hu : a.update p fuel' order input value = .ok (a', out)) : Living p fuel document a' := by
  have hup := update_refines h.session hu
  refine ⟨.updated h.session hup, ?_⟩
  obtain ⟨v, t, t', u, g1, g2, g3, g4⟩ := hup
  obtain ⟨-, hk, -, -⟩ := h.bound g1
  have hf := handleOutput_form (session_ok h.session) g1 g2 g3
  rw [g4]
  simp only
  rw [hf.kids, g2.kids]
  exact hk

/-- An update of a living view whose bindings take the value and whose styles are tame. -/
theorem Living.update_succeeds {fuel : Nat} {document : Html} {a : App} (h : Living p fuel document a) {order : FrameOrder} (ho : order.Fair) {input : Input} {value : Json} {v : View}
    (hv : a.screen.view.update p.inline value = .ok v) (ht : Tame (a.env p 0 order input.time) v.stage.tree) :
    ∃ a' out F, ∀ fuel ≥ F, a.update p fuel order input value = .ok (a', out) := by
  obtain ⟨wf, -, hb, hbe⟩ := h.bound hv
  obtain ⟨styled, F1, D, hs⟩ := C67_frame_succeeds (env := a.env p 0 order input.time) ho
    (s := ⟨v.stage.tree, upd a.layouts v.root (resizeRoot input.viewport (a.layouts v.root))⟩) wf hb hbe ht input.viewport
  have hst : Restyled v.stage.tree styled.tree := styleView_restyled (s := ⟨v.stage.tree, _⟩) wf (hs F1 le_rfl D le_rfl)
  have hform : SameForm v.stage.tree styled.tree := Tree.Related.mono (fun _ _ hx => hx.1) hst
  obtain ⟨tree, hp, -⟩ := C57_succeeds (p.solve (styled.recall order.recall)) (hform.wf wf) (by rw [hst.isSome]; exact hbe)
  have hpl : Restyled styled.tree tree := placeTree_restyled _ (hp (styled.tree.next + 1) (Nat.lt_succ_self _))
  obtain ⟨t', u, out, h1, -, -⟩ := session_update (session_ok h.session) hv (hst.trans hpl) input.events
  refine ⟨⟨⟨{ v with stage := { v.stage with tree := t' } }, u⟩, a.css, a.kept, styled.layouts⟩, out, max F1 (max D (styled.tree.next + 1)), fun fuel hF => ?_⟩
  unfold App.update
  rw [hv]
  simp only
  have e1 := hs fuel (by omega) fuel (by omega)
  rw [show styleView (a.env p fuel order input.time) fuel v.body input.viewport
    ⟨v.stage.tree, upd a.layouts v.root (resizeRoot input.viewport (a.layouts v.root))⟩ = .ok styled from e1]
  simp only
  rw [hp fuel (by omega)]
  simp only
  rw [h1]

/-- What holds of a smooth view between updates with fitting values, before updates with `values`. -/
structure Steady (p : Platform) (fuel : Nat) (document : Html) (s : Shape) (used : PropertyKey → Prop) (rank : String → Nat) (a : App) (values : List Json) : Prop where
  living : Living p fuel document a
  follows : ∃ v0 σ hist, Reached p.translate p.inline p.transformers fuel document v0 ∧ Twin v0 a.screen.view ∧ Follows s σ p.transformers hist v0
  calm : a.screen.view.stage.tree.Calm (smoothManner used rank).loose
  fed : Fed p fuel document (fun _ => SmoothBlock used rank) a values
  rules : ∀ n, ∀ r ∈ a.kept n, r.rule.NoPlus ∧ SmoothBlock used rank r.rule.declaration
  sheet : a.css.Smooth used rank

theorem Steady.tame {fuel : Nat} {document : Html} {s : Shape} {used : PropertyKey → Prop} {rank : String → Nat} {a : App} {value : Json} {values : List Json}
    (h : Steady p fuel document s used rank a (value :: values)) (order : FrameOrder) (time : Rat) {v : View} (hv : a.screen.view.update p.inline value = .ok v) :
    v.stage.tree.Calm (smoothManner used rank) ∧ Tame (a.env p 0 order time) v.stage.tree := by
  obtain ⟨v0, σ, hist, hr, htw, hfo⟩ := h.follows
  have hcalm : v.stage.tree.Calm (smoothManner used rank) := ((twin_kids hr htw hv).2 _ (fun _ _ => trivial) h.calm).with trivial (h.fed.bound hv)
  refine ⟨hcalm, ⟨rank, fun n r hr x hx => (h.rules n r hr).2.ranked x hx, fun n e he x hx => (hcalm n e he).style.ranked x hx⟩, fun n r hr => (h.rules n r hr).1, ?_, ?_⟩
  · intro n e he x hx hs
    refine (hcalm n e he).animators x hx ?_
    intro hn
    rw [hn, show (a.env p 0 order time).animations "" = none from h.sheet.named] at hs
    cases hs
  · intro n e he x hx key hkey
    obtain ⟨-, h2, h3⟩ := (hcalm n e he).transitions x hx key hkey
    refine ⟨h2, h3.imp id fun hu y hy hfor => hu ?_⟩
    rcases hy with hy | hy
    · unfold declarations at hy
      split at hy
      · rename_i rules hrules
        rcases List.mem_append.1 hy with hy | hy
        · obtain ⟨b, hb, hyb⟩ := List.mem_flatten.1 hy
          obtain ⟨st, hst, rfl⟩ := List.mem_map.1 hb
          obtain ⟨r, hr, rfl⟩ := applied_mem hrules st hst
          exact (h.rules n r hr).2.declares y hyb key hfor
        · exact (hcalm n e he).style.declares y hy key hfor
      · cases hy
    · unfold keyframeDeclarations at hy
      obtain ⟨ds, hds, hyd⟩ := List.mem_flatten.1 hy
      obtain ⟨an, han, rfl⟩ := List.mem_map.1 hds
      split at hyd
      · rename_i animation hanim
        obtain ⟨b, hb, hyb⟩ := List.mem_flatten.1 hyd
        obtain ⟨k, hk, rfl⟩ := List.mem_map.1 hb
        exact (h.sheet.keyframes _ _ hanim k hk y hyb).2 key hfor
      · cases hyd

theorem Steady.step {fuel : Nat} {document : Html} {s : Shape} {used : PropertyKey → Prop} {rank : String → Nat} {a : App} {f : Frame} {values : List Json}
    (h : Steady p fuel document s used rank a (f.value :: values)) (ho : f.order.Fair) (hf : Fits s f.value) :
    ∃ a' out F, (∀ fuel ≥ F, a.update p fuel f.order f.input f.value = .ok (a', out)) ∧ Steady p fuel document s used rank a' values := by
  obtain ⟨v0, σ, hist, hr, htw, hfo⟩ := h.follows
  obtain ⟨v2, hv2, hfo2⟩ := follows_update (inline := p.inline) hfo hf
  obtain ⟨v, hv⟩ := twin_succeeds hr htw hv2
  obtain ⟨v2', hv2', htw2⟩ := twin_step hr htw hv
  rw [hv2] at hv2'; injection hv2' with hv2'; subst hv2'
  obtain ⟨hcalm, htame⟩ := h.tame f.order f.input.time hv
  obtain ⟨a', out, F, hu⟩ := h.living.update_succeeds ho hv htame
  refine ⟨a', out, F, hu, h.living.updated (hu F le_rfl), ?_, ?_, h.fed.updated h.living.session (hu F le_rfl), ?_, ?_⟩
  all_goals
    obtain ⟨v', styled, tree, t', ui, g1, g2, g3, g4, g5⟩ := update_parts (hu F le_rfl)
    rw [hv] at g1; injection g1 with g1; subst g1
    have hst : Restyled v.stage.tree styled.tree := styleView_restyled (s := ⟨v.stage.tree, _⟩) (h.living.bound hv).1 g2
    have hpl : Restyled styled.tree tree := placeTree_restyled _ g3
    have hso := handleOutput_states (session_ok h.living.session) hv (hst.trans hpl) g4
    rw [g5]
  · exact ⟨v2, σ, _, .updated hr hv2, htw2.output (hst.trans hpl) hso.sameForm, hfo2⟩
  · refine (stateOnly_calm (placeTree_calm _ g3 ?_) hso).loosen
    exact styleTree_calm ho (fun n r hr => (h.rules n r hr).2) (fun name an hn k hk x hx => (h.sheet.keyframes name an hn k hk x hx).1) _ g2 hcalm
  · exact h.rules
  · exact h.sheet

theorem Steady.run {fuel : Nat} {document : Html} {s : Shape} {used : PropertyKey → Prop} {rank : String → Nat} (fs : List Frame) {a : App} {values : List Json} (h : Steady p fuel document s used rank a (fs.map (·.value) ++ values))
    (hf : ∀ f ∈ fs, f.order.Fair ∧ Fits s f.value) :
    ∃ a' outs F, (∀ fuel ≥ F, a.run p fuel fs = .ok (a', outs)) ∧ Steady p fuel document s used rank a' values := by
  induction fs generalizing a with
  | nil => exact ⟨a, [], 0, fun _ _ => rfl, h⟩
  | cons f fs ih =>
    obtain ⟨a1, out, F1, h1, h2⟩ := h.step (hf f (by simp)).1 (hf f (by simp)).2
    obtain ⟨a2, outs, F2, h3, h4⟩ := ih h2 (fun f hf' => hf f (by simp [hf']))
    refine ⟨a2, out :: outs, max F1 F2, fun fuel hF => ?_, h4⟩
    rw [App.run, h1 fuel (by omega)]
    simp only
    rw [h3 fuel (by omega)]

theorem Steady.opened {fuel : Nat} {document : Html} {css : Css} {a : App} (h : openApp p fuel document css = .ok a) {used : PropertyKey → Prop} {rank : String → Nat}
    (hcss : css.Smooth used rank) {values : List Json} (hd : a.screen.view.InlineStyles p.inline (fun _ => SmoothBlock used rank) values) {s : Shape} (hok : s.Ok) (hno : s.NoArrArr) (hs : HasShape s a.screen.view.vm.model) :
    Steady p fuel document s used rank a values := by
  obtain ⟨σ, ho⟩ := openApp_opened h
  refine ⟨.opened h, ?_, openApp_loose ho, .opened ho hd, fun n r hr => hcss.rules _ (openApp_rules ho n r hr), by rw [ho.sheet]; exact hcss⟩
  rcases openView_cases (inline := p.inline) p.translate p.transformers fuel document with ⟨v1, σ1, r, b, h', -, hop⟩ | h' | ⟨id, h'⟩
  · rw [ho.view] at h'; injection h' with h'; subst h'
    exact ⟨_, σ1, [], .opened ho.view, ⟨rfl, rfl, rfl, rfl, Tree.Related.refl Element.SameForm.refl _⟩, follows_open hop hok hno hs⟩
  · rw [ho.view] at h'; cases h'
  · rw [ho.view] at h'; cases h'

end Verif
