import Verif.Spec.Resolve
import Verif.View.OpenParts
/-!
# Mentioned paths exist in the bound model (lemmas for C25)
-/
namespace Verif
open Json

theorem replaceTilde_free (d o : Char) (l : List Char) (h : '~' ∉ l) : replaceTilde d o l = l := by
  induction l with
  | nil => rfl
  | cons c cs ih =>
    simp only [List.mem_cons, not_or] at h
    unfold replaceTilde
    split
    · rename_i heq; simp at heq
    · rename_i heq; simp only [List.cons.injEq] at heq; exact absurd heq.1.symm h.1
    · rename_i heq
      simp only [List.cons.injEq] at heq
      obtain ⟨rfl, rfl⟩ := heq
      rw [ih h.2]

theorem unescape_plain {t : String} (h : '~' ∉ t.toList) : unescape t = t := by
  unfold unescape
  rw [replaceTilde_free _ _ _ h, replaceTilde_free _ _ _ h, String.ofList_toList]

/-- The decimal digits of a positive number do not start with zero. -/
theorem toDigits_head (n : Nat) (hn : n ≠ 0) : (Nat.toDigits 10 n).head? ≠ some '0' := by
  induction n using Nat.strongRecOn with
  | _ n ih =>
    rw [Nat.toDigits_eq_if (by omega)]
    split
    · rename_i h
      intro hh
      simp only [List.head?_cons, Option.some.injEq] at hh
      have : n = 1 ∨ n = 2 ∨ n = 3 ∨ n = 4 ∨ n = 5 ∨ n = 6 ∨ n = 7 ∨ n = 8 ∨ n = 9 := by omega
      rcases this with rfl | rfl | rfl | rfl | rfl | rfl | rfl | rfl | rfl <;> simp [Nat.digitChar] at hh
    · have := ih (n / 10) (by omega) (by omega)
      intro hh
      apply this
      cases hd : Nat.toDigits 10 (n / 10) with
      | nil => exact absurd hd Nat.toDigits_ne_nil
      | cons a l => rw [hd] at hh; simpa using hh

theorem parseIndex_repr (i : Nat) : parseIndex (toString i) = parseU64 (toString i) := by
  unfold parseIndex
  rw [if_neg]
  show ¬ ((Nat.repr i).toList.head? = some '+' ∨ ((Nat.repr i).toList.head? = some '0' ∧ (Nat.repr i).toList.length ≠ 1))
  rw [Nat.toList_repr]
  rintro (h | ⟨h, h2⟩)
  · have hm : '+' ∈ Nat.toDigits 10 i := List.mem_of_head? h
    have := Nat.isDigit_of_mem_toDigits (by omega) (by omega) hm
    simp [Char.isDigit] at this
  · by_cases hi : i = 0
    · subst hi; apply h2; decide
    · exact toDigits_head i hi h

/-- A walk that enters arrays by numbers and objects by names only. -/
def strict : List String → Json → Option Json
  | [], v => some v
  | t :: ts, v =>
    match parseU64 t with
    | some i => (match v with | .arr l => l[i]? | _ => none).bind (strict ts)
    | none => (match v with | .obj o => get o t | _ => none).bind (strict ts)

theorem strict_steps (ts : List String) (hp : ∀ t ∈ ts, PlainKey t) (v x : Json) (h : strict ts v = some x) :
    v.steps (ts.map unescape) = some x := by
  induction ts generalizing v with
  | nil => simpa [strict, Json.steps] using h
  | cons t ts ih =>
    obtain ⟨p1, p2⟩ := hp t (by simp)
    have ih := ih (fun t ht => hp t (by simp [ht]))
    simp only [List.map_cons, Json.steps, unescape_plain p1]
    simp only [strict] at h
    cases hu : parseU64 t with
    | none =>
      simp only [hu] at h
      cases v with
      | obj o =>
        simp only [Option.bind_eq_some_iff] at h
        obtain ⟨y, h1, h2⟩ := h
        simp only [Json.step, h1, Option.bind_some]
        exact ih y h2
      | _ => simp at h
    | some i =>
      simp only [hu] at h
      cases v with
      | arr l =>
        simp only [Option.bind_eq_some_iff] at h
        obtain ⟨y, h1, h2⟩ := h
        have : parseIndex t = some i := by
          have e := p2 i hu
          rw [e, parseIndex_repr, ← e, hu]
        simp only [Json.step, this, Option.bind_some, h1]
        exact ih y h2
      | _ => simp at h

theorem strict_define (ts : List String) (v : Json) : (strict ts (defineTokens ts v)).isSome := by
  induction ts generalizing v with
  | nil => rfl
  | cons t ts ih =>
    simp only [strict, defineTokens]
    cases hu : parseU64 t with
    | none =>
      simp only
      have hsome : (get (if (get (asObject v) t).isSome then asObject v else Json.insert (asObject v) t .null) t).isSome := by
        split
        · assumption
        · rw [get_insert]; simp
      rw [get_replace _ _ _ _ hsome]
      simp only [if_true, Option.bind_some]
      exact ih _
    | some i =>
      simp only
      have hlt : i < ((asArray v) ++ List.replicate (i + 1 - (asArray v).length) Json.null).length := by
        simp; omega
      rw [List.getElem?_modify]
      simp only [if_true, List.getElem?_eq_getElem hlt, Option.map_some, Option.bind_some]
      exact ih _

theorem strict_keep (us ts : List String) (hpu : ∀ t ∈ us, PlainKey t) (hpt : ∀ t ∈ ts, PlainKey t)
    (hc : SameUse us ts) (v : Json) (h : (strict us v).isSome) :
    (strict us (defineTokens ts v)).isSome := by
  induction us generalizing ts v with
  | nil => rfl
  | cons u us ih =>
    cases ts with
    | nil => exact h
    | cons t ts =>
      have hut := hc [] u t us ts rfl rfl
      have ih := fun ts hpt => ih ts (fun x hx => hpu x (by simp [hx])) (hpt)
      have hpt' : ∀ x ∈ ts, PlainKey x := fun x hx => hpt x (by simp [hx])
      have htail : u = t → SameUse us ts := by
        rintro rfl pre a b x y e1 e2
        exact hc (u :: pre) a b x y (by rw [e1]; rfl) (by rw [e2]; rfl)
      simp only [strict] at h ⊢
      simp only [defineTokens]
      cases hu : parseU64 u with
      | none =>
        have ht : parseU64 t = none := by rw [hu] at hut; simpa using hut
        simp only [hu, ht] at h ⊢
        cases v with
        | obj o =>
          rw [show asObject (.obj o) = o from rfl]
          simp only at h
          have hsome : (get (if (get o t).isSome then o else Json.insert o t .null) t).isSome := by
            split
            · assumption
            · rw [get_insert]; simp
          rw [get_replace _ _ _ _ hsome]
          obtain ⟨z, hz⟩ := Option.isSome_iff_exists.1 h
          rw [Option.bind_eq_some_iff] at hz
          obtain ⟨y, h1, h2⟩ := hz
          by_cases e : t = u
          · subst e
            simp only [if_true, Option.bind_some]
            rw [if_pos (by rw [h1]; rfl), h1]
            exact ih ts hpt' (htail rfl) _ (by simp [h2])
          · rw [if_neg e]
            have : get (if (get o t).isSome then o else Json.insert o t .null) u = some y := by
              split
              · exact h1
              · rw [get_insert, if_neg e]; exact h1
            rw [this]; simp [h2]
        | _ => simp at h
      | some i =>
        obtain ⟨j, ht⟩ : ∃ j, parseU64 t = some j := by
          rw [hu] at hut; exact Option.isSome_iff_exists.1 (hut.1 rfl)
        simp only [hu, ht] at h ⊢
        cases v with
        | arr l =>
          simp only [asArray] at h ⊢
          obtain ⟨z, hz⟩ := Option.isSome_iff_exists.1 h
          rw [Option.bind_eq_some_iff] at hz
          obtain ⟨y, h1, h2⟩ := hz
          have hlt := (List.getElem?_eq_some_iff.1 h1).1
          have hk : (l ++ List.replicate (j + 1 - l.length) Json.null)[i]? = some y := by
            rw [List.getElem?_append_left hlt]; exact h1
          rw [List.getElem?_modify, hk]
          by_cases e : j = i
          · subst e
            simp only [if_true, Option.map_some, Option.bind_some]
            have e2 : u = t := by
              rw [(hpu u (by simp)).2 j hu, (hpt t (by simp)).2 j ht]
            exact ih ts hpt' (htail e2) _ (by simp [h2])
          · simp [e, h2]
        | _ => simp at h

theorem defineAll_strict (paths : List String) (hc : Consistent paths) (done rest : List String)
    (hp : paths = done ++ rest) (v : Json) (h : ∀ p ∈ done, (strict (tokens p) v).isSome) :
    ∀ p ∈ paths, (strict (tokens p) (rest.foldl define v)).isSome := by
  induction rest generalizing done v with
  | nil => simpa [hp] using h
  | cons q rest ih =>
    rw [List.foldl_cons]
    have hq : q ∈ paths := by simp [hp]
    apply ih (done ++ [q]) (by simp [hp])
    intro p hmem
    unfold define
    rw [if_neg (hc.notThis q hq)]
    rcases List.mem_append.1 hmem with hmem | hmem
    · have hpm : p ∈ paths := by simp [hp, hmem]
      exact strict_keep _ _ (hc.plain p hpm) (hc.plain q hq) (hc.use p hpm q hq) v (h p hmem)
    · simp only [List.mem_singleton] at hmem
      subst hmem
      exact strict_define _ _

/-! ## All paths start with a slash -/

def Slashed (p : String) : Prop := p.toList.head? = some '/'
def SlashedScope (ρ : SMap String) : Prop := ∀ x p, ρ x = some p → Slashed p

theorem slashed_append {a b : String} (h : Slashed a) : Slashed (a ++ b) := by
  unfold Slashed at *
  rw [String.toList_append, List.head?_append, h]; rfl

theorem denotes_slashed {ρ : SMap String} (h : SlashedScope ρ) (b : Binder) : Slashed (b.denotes ρ) := by
  unfold Binder.denotes
  have aux : ∀ (l : List String) (a : String), Slashed a → Slashed (l.foldl (fun p k => p ++ "/" ++ k) a) := by
    intro l
    induction l with
    | nil => intro a h; exact h
    | cons k l ih => intro a h; exact ih _ (slashed_append (slashed_append h))
  apply aux
  split
  · rename_i p hp; exact h _ _ hp
  · unfold Slashed; rw [String.toList_append]; rfl

theorem slashed_set {ρ : SMap String} (h : SlashedScope ρ) (n : String) {p : String} (hp : Slashed p) :
    SlashedScope (ρ.set n p) := by
  intro x q hq
  by_cases e : x = n
  · subst e; simp at hq; subst hq; exact hp
  · rw [SMap.set_other _ _ e] at hq; exact h x q hq

theorem aliasScope_slashed (bs : List ElementBinding) (ρ : SMap String) (h : SlashedScope ρ) :
    SlashedScope (aliasScope ρ bs).1 ∧ ∀ p ∈ mentionedPaths (aliasScope ρ bs).2, Slashed p := by
  induction bs generalizing ρ with
  | nil => exact ⟨h, by simp [aliasScope, mentionedPaths]⟩
  | cons b bs ih =>
    cases b with
    | «alias» n b =>
      have := ih _ (slashed_set h n (denotes_slashed h b))
      refine ⟨this.1, ?_⟩
      simp only [aliasScope, mentionedPaths, List.filterMap_cons, List.mem_cons, forall_eq_or_imp]
      exact ⟨denotes_slashed h b, this.2⟩
    | _ => exact ih ρ h

theorem mentionedPaths_append (a b : List Mention) :
    mentionedPaths (a ++ b) = mentionedPaths a ++ mentionedPaths b := by simp [mentionedPaths]

theorem mentionedPaths_flatMap {α} (l : List α) (f : α → List Mention) :
    mentionedPaths (l.flatMap f) = l.flatMap fun a => mentionedPaths (f a) := by
  simp [mentionedPaths, List.filterMap_flatMap]

theorem spanMentions_slashed (ρ : SMap String) (h : SlashedScope ρ) (spans : List TextSpan) :
    ∀ p ∈ mentionedPaths (spanMentions ρ spans), Slashed p := by
  unfold spanMentions
  rw [mentionedPaths_flatMap]
  intro p hp
  obtain ⟨s, -, hs⟩ := List.mem_flatMap.1 hp
  cases s with
  | string s => simp [mentionedPaths] at hs
  | binder b => simp [mentionedPaths] at hs; subst hs; exact denotes_slashed h b

theorem ownMentions_slashed (ρ : SMap String) (h : SlashedScope ρ) (b : ElementBinding) :
    ∀ p ∈ mentionedPaths (ownMentions ρ b), Slashed p := by
  cases b with
  | tag k b => intro p hp; simp [ownMentions, mentionedPaths] at hp; subst hp; exact denotes_slashed h b
  | «attribute» k spans =>
    intro p hp
    unfold ownMentions at hp
    split at hp
    · rename_i heq; cases heq
    · simp [mentionedPaths] at hp
    · rename_i heq; cases heq; exact spanMentions_slashed ρ h _ p hp
    · rename_i heq; cases heq
    · simp [mentionedPaths] at hp
  | callback e as =>
    intro p hp
    simp only [ownMentions] at hp
    rw [mentionedPaths_flatMap] at hp
    obtain ⟨s, -, hs⟩ := List.mem_flatMap.1 hp
    cases s with
    | binder b => simp [mentionedPaths] at hs; subst hs; exact denotes_slashed h b
    | _ => simp [mentionedPaths] at hs
  | _ => intro p hp; simp [ownMentions, mentionedPaths] at hp

theorem mentions_slashed (env : RenderEnv) (depth : Nat) : ∀ (ρ : SMap String) (h : Html), SlashedScope ρ →
    ∀ p ∈ mentionedPaths (mentions env depth ρ h), Slashed p := by
  induction depth with
  | zero => intro ρ h _ p hp; simp [mentions, mentionedPaths] at hp
  | succ depth ih =>
    intro ρ h hρ p hp
    simp only [mentions] at hp
    split at hp
    · exact spanMentions_slashed ρ hρ _ p hp
    · rw [mentionedPaths_append, List.mem_append] at hp
      rcases hp with hp | hp
      · rw [mentionedPaths_flatMap] at hp
        obtain ⟨b, -, hb⟩ := List.mem_flatMap.1 hp
        exact ownMentions_slashed ρ hρ b p hb
      · split at hp
        · simp [mentionedPaths] at hp
        · rw [mentionedPaths_flatMap] at hp
          obtain ⟨c, -, hc⟩ := List.mem_flatMap.1 hp
          unfold childMentions at hc
          split at hc
          · simp [mentionedPaths] at hc
          · rename_i c' hr
            obtain ⟨a1, a2⟩ := aliasScope_slashed c'.bindings ρ hρ
            simp only at hc
            rw [mentionedPaths_append, List.mem_append] at hc
            rcases hc with hc | hc
            · exact a2 p hc
            · split at hc
              · simp only [mentionedPaths, List.filterMap_cons, List.filterMap_append, List.filterMap_nil,
                  List.append_nil, List.mem_cons] at hc
                rcases hc with rfl | hc
                · exact denotes_slashed a1 _
                · exact ih _ _ a1 p hc
              · simp only [mentionedPaths, List.filterMap_cons, List.mem_cons] at hc
                rcases hc with rfl | hc
                · exact denotes_slashed a1 _
                · have hc' : p ∈ mentionedPaths _ := hc
                  rw [mentionedPaths_flatMap] at hc'
                  obtain ⟨n, -, hn⟩ := List.mem_flatMap.1 hc'
                  simp only [mentionedPaths, List.filterMap_cons, List.mem_cons] at hn
                  have hs := slashed_append (b := toString n) (slashed_append (b := "/") (denotes_slashed a1 (by assumption)))
                  rcases hn with rfl | hn
                  · exact hs
                  · exact ih _ _ (slashed_set a1 _ hs) p hn
              · exact ih _ _ a1 p hc

theorem pointer_of_strict {p : String} (hs : Slashed p) (hp : ∀ t ∈ tokens p, PlainKey t) {v : Json}
    (h : (strict (tokens p) v).isSome) : (v.pointer p).isSome := by
  obtain ⟨x, hx⟩ := Option.isSome_iff_exists.1 h
  unfold Json.pointer
  split
  · rfl
  · unfold Slashed at hs
    rw [if_pos hs, strict_steps _ hp _ _ hx]; rfl

/-! ## Callback arguments are mentioned -/

/-- The paths of callback arguments are among `D`. -/
def ArgsIn (σ : Render) (D : List String) : Prop :=
  ∀ m e, σ.tree.ctx m = some e → ∀ ev hd, e.listeners ev = some hd → ∀ p pipe,
    .binder p pipe ∈ hd.arguments → p ∈ D

theorem ArgsIn.mono {σ : Render} {D D' : List String} (h : ArgsIn σ D) (hd : ∀ x ∈ D, x ∈ D') : ArgsIn σ D' :=
  fun m e h1 ev hh h2 p pipe h3 => hd _ (h m e h1 ev hh h2 p pipe h3)

theorem ArgsIn.same {σ σ' : Render} {D : List String} (h : ArgsIn σ D) (ht : σ'.tree.ctx = σ.tree.ctx) : ArgsIn σ' D := by
  intro m e h1; rw [ht] at h1; exact h m e h1

def RecArgs (Q : Html → Prop) (rec : RenderFn) (below : SMap String → Html → List Mention) : Prop :=
  ∀ h σ n σ' D, Q h → rec h σ = .ok (n, σ') → ArgsIn σ D → ArgsIn σ' (D ++ mentionedPaths (below σ.locals h))

theorem renderSlots_args {Q : Html → Prop} {rec below} (hrec : RecArgs Q rec below) (hsc : RecScoped Q rec below)
    {child : Html} (hQ : Q child) {name : String} {b : Binder} (hne : name ≠ b.head) (ns : List Nat)
    (cs : List NodeId) (σ : Render) (ρ : SMap String) (hρ : ∀ x, x ≠ name → σ.locals x = ρ x) {cs' σ' D}
    (h : renderSlots rec name b child ns cs σ = .ok (cs', σ')) (ha : ArgsIn σ D) :
    ArgsIn σ' (D ++ mentionedPaths (ns.flatMap fun n => .define (b.denotes ρ ++ "/" ++ toString n) ::
      below (ρ.set name (b.denotes ρ ++ "/" ++ toString n)) child)) := by
  induction ns generalizing cs σ D with
  | nil =>
    simp only [renderSlots, Except.ok.injEq, Prod.mk.injEq] at h
    rw [← h.2]
    exact ha.mono (by simp +contextual)
  | cons n ns ih =>
    simp only [renderSlots] at h
    split at h
    · simp at h
    · rename_i c σ1 he
      obtain ⟨l1, -⟩ := hsc _ _ _ _ hQ he
      have u1 := hrec _ _ _ _ D hQ he (ha.same rfl)
      have hp : b.pointer σ.locals = b.denotes ρ := by
        rw [pointer_eq_denotes]; unfold Binder.denotes; rw [hρ b.head (Ne.symm hne)]
      have hl : (σ.index b n).2.locals.set name (σ.index b n).1
          = ρ.set name (b.denotes ρ ++ "/" ++ toString n) := by
        funext x
        by_cases hx : x = name
        · subst hx; simp [Render.index, hp]
        · simp only [SMap.set_other _ _ hx]; exact hρ x hx
      simp only [hl] at l1 u1
      have := ih (cs ++ [c]) σ1 (by intro x hx; rw [l1, SMap.set_other _ _ hx]) h u1
      refine this.mono ?_
      rw [List.flatMap_cons, mentionedPaths_append]
      intro x hx
      simp only [List.mem_append] at hx ⊢
      rcases hx with (hx | hx) | hx
      · exact .inl hx
      · exact .inr (.inl (by simp only [mentionedPaths, List.filterMap_cons, List.mem_cons]; exact .inr hx))
      · exact .inr (.inr hx)

theorem renderBody_args {Q : Html → Prop} {rec below} (hrec : RecArgs Q rec below) (hsc : RecScoped Q rec below)
    {child : Html} (hQ : Q child) (hfresh : LoopNameFresh child) {node : NodeId} (cs : List NodeId) (σ : Render) {cs' σ' D}
    (h : renderBody rec node child cs σ = .ok (cs', σ')) (ha : ArgsIn σ D) :
    ArgsIn σ' (D ++ mentionedPaths (match child.asVisibility, child.asRepeat with
      | some (_, b), _ => .define (b.denotes σ.locals) :: (below σ.locals child ++ [.bind (b.denotes σ.locals)])
      | none, some (name, count, b) =>
        .define (b.denotes σ.locals) :: .bind (b.denotes σ.locals) ::
          (List.range count).flatMap fun n =>
            .define (b.denotes σ.locals ++ "/" ++ toString n) ::
              below (σ.locals.set name (b.denotes σ.locals ++ "/" ++ toString n)) child
      | none, none => below σ.locals child)) := by
  unfold renderBody at h
  split at h
  · rename_i v b hv
    simp only at h
    split at h
    · simp at h
    · rename_i c σ1 he
      simp only [Except.ok.injEq, Prod.mk.injEq] at h
      obtain ⟨-, rfl⟩ := h
      have u1 := hrec _ _ _ _ D hQ he (ha.same rfl)
      rw [hv]
      refine ArgsIn.same (σ := σ1) (u1.mono ?_) rfl
      intro x hx
      rw [List.mem_append] at hx ⊢
      rcases hx with hx | hx
      · exact .inl hx
      · right
        simp only [mentionedPaths, List.filterMap_cons, List.filterMap_append, List.mem_cons, List.mem_append]
        exact .inr (.inl hx)
  · rename_i hv
    split at h
    · rename_i name count b hr
      simp only at h
      split at h
      · simp at h
      · rename_i cs1 σ1 he
        simp only [Except.ok.injEq, Prod.mk.injEq] at h
        obtain ⟨-, rfl⟩ := h
        have hmem : .repeat name count b ∈ child.bindings := by
          unfold Html.asRepeat at hr
          obtain ⟨x, hx1, hx2⟩ := List.exists_of_findSome?_eq_some hr
          cases x <;> simp at hx2
          obtain ⟨rfl, rfl, rfl⟩ := hx2
          exact hx1
        have u1 := renderSlots_args hrec hsc hQ (hfresh name count b hmem) _ _ _ σ.locals
          (by intro x hx; simp [Render.register, Render.field, SMap.del_other _ hx]) he (D := D) (ha.same rfl)
        simp only [hv, hr]
        refine ArgsIn.same (σ := σ1) (u1.mono ?_) rfl
        intro x hx
        rw [List.mem_append] at hx ⊢
        rcases hx with hx | hx
        · exact .inl hx
        · right
          simp only [mentionedPaths, List.filterMap_cons, List.mem_cons]
          exact .inr hx
    · rename_i hr
      split at h
      · simp at h
      · rename_i c σ1 he
        simp only [Except.ok.injEq, Prod.mk.injEq] at h
        obtain ⟨-, rfl⟩ := h
        simp only [hv, hr]
        exact hrec _ _ _ _ D hQ he ha

theorem renderAliases_ctx (bs : List ElementBinding) (ov : SMap (Option String)) (σ : Render) :
    (renderAliases bs ov σ).2.tree = σ.tree := by
  induction bs generalizing ov σ with
  | nil => rfl
  | cons b bs ih =>
    cases b with
    | «alias» name b => simp only [renderAliases]; rw [ih]; rfl
    | _ => exact ih ov σ

theorem renderChildren_args {env : RenderEnv} {rec below} {P : Html → Prop}
    (hP : ∀ c, P c → DistinctAliases env c ∧ LoopNameFresh c)
    (hrec : RecArgs (EveryNode env P) rec below) (hsc : RecScoped (EveryNode env P) rec below) {h : Html}
    (hE : EveryNode env P h) {node : NodeId}
    (l : List Html) (hl : ∀ c ∈ l, c ∈ h.children) (cs : List NodeId) (σ : Render) {cs' σ' D}
    (hok : renderChildren env rec node l cs σ = .ok (cs', σ')) (ha : ArgsIn σ D) :
    ArgsIn σ' (D ++ mentionedPaths (l.flatMap (childMentions env below σ.locals))) := by
  induction l generalizing cs σ D with
  | nil =>
    simp only [renderChildren, Except.ok.injEq, Prod.mk.injEq] at hok
    rw [← hok.2]; exact ha.mono (by simp +contextual)
  | cons c l ih =>
    simp only [renderChildren] at hok
    split at hok
    · simp at hok
    · rename_i cs1 σ1 he
      obtain ⟨l1, -⟩ := renderChild_scoped hP hsc (hl c (by simp)) hE cs σ he
      have hc1 : ArgsIn σ1 (D ++ mentionedPaths (childMentions env below σ.locals c)) := by
        unfold renderChild at he
        split at he
        · simp at he
        · rename_i c' hr
          simp only at he
          split at he
          · simp at he
          · rename_i cs2 σ2 hb
            simp only [Except.ok.injEq, Prod.mk.injEq] at he
            obtain ⟨-, rfl⟩ := he
            have hmem := hl c (by simp)
            obtain ⟨hn, hf⟩ := resolve_conditions hr (hP _ (hE.1 _ (.child hmem))) (fun id t ht => hP _ (hE.2 id t ht).1)
            obtain ⟨a1, -⟩ := renderAliases_used c'.bindings (fun _ => none) σ
            have hb' := renderBody_args hrec hsc (resolve_below hmem hr hE) hf cs _ hb (D := D)
              (ha.same (by rw [renderAliases_ctx]))
            rw [a1] at hb'
            unfold childMentions
            rw [hr]
            simp only
            rw [mentionedPaths_append]
            refine ArgsIn.same (σ := σ2) (hb'.mono ?_) rfl
            intro x hx
            simp only [List.mem_append] at hx ⊢
            rcases hx with hx | hx
            · exact .inl hx
            · exact .inr (.inr hx)
      have := ih (fun d hd => hl d (by simp [hd])) cs1 σ1 hok hc1
      rw [l1] at this
      rw [List.flatMap_cons, mentionedPaths_append, ← List.append_assoc]
      exact this

theorem own_listener_mention {ρ : SMap String} {bs : List ElementBinding} {ev : String} {hd : Handler} {p : String}
    {pipe : List String} (h : (bs.filterMap (listenerValue ρ ev)).getLast? = some hd)
    (hp : .binder p pipe ∈ hd.arguments) : p ∈ mentionedPaths (bs.flatMap (ownMentions ρ)) := by
  have hm := List.mem_of_getLast? h
  obtain ⟨b, hb, hv⟩ := List.mem_filterMap.1 hm
  rw [mentionedPaths_flatMap, List.mem_flatMap]
  refine ⟨b, hb, ?_⟩
  cases b with
  | callback e as =>
    simp only [listenerValue] at hv
    split at hv
    · injection hv with hv; subst hv
      simp only [List.mem_map] at hp
      obtain ⟨a, ha, hv⟩ := hp
      simp only [ownMentions]
      rw [mentionedPaths_flatMap, List.mem_flatMap]
      refine ⟨a, ha, ?_⟩
      cases a with
      | binder b => simp only [argValue, HandlerArgument.binder.injEq] at hv; simp [mentionedPaths, hv.1]
      | _ => simp [argValue] at hv
    · simp at hv
  | _ => simp [listenerValue] at hv

theorem setChildren_ctx {t t' : Tree} {p : NodeId} {cs : List NodeId} (h : t.setChildren p cs = .ok t') :
    t'.ctx = t.ctx := by
  unfold Tree.setChildren at h
  split at h
  · simp at h
  · simp only [Except.ok.injEq] at h
    subst h
    have aux : ∀ (l : List NodeId) (t : Tree), (l.foldl (Tree.adopt p) t).ctx = t.ctx := by
      intro l
      induction l with
      | nil => intro t; rfl
      | cons c l ih => intro t; rw [List.foldl_cons, ih]; rfl
    exact aux _ _

theorem renderNode_args (env : RenderEnv) {P : Html → Prop}
    (hP : ∀ c, P c → DistinctAliases env c ∧ LoopNameFresh c) (fuel : Nat) :
    RecArgs (EveryNode env P) (renderNode env fuel) (mentions env fuel) := by
  induction fuel with
  | zero => intro h σ n σ' D _ hok; simp [renderNode] at hok
  | succ fuel ih =>
    intro h σ n σ' D hE hok ha
    simp only [renderNode] at hok
    split at hok
    · rename_i spans ht
      simp only [Except.ok.injEq] at hok
      have e2 : (renderText env spans σ).2 = σ' := by rw [hok]
      obtain ⟨hl, -⟩ := renderSpans_frame (fun i => .text σ.tree.newLeaf.1 i) env.translate spans 0
        { σ with tree := σ.tree.newLeaf.2 }
      rw [← e2]
      intro m e hm ev hd hv p pipe hp
      simp only [renderText, Tree.setCtx, hl] at hm
      by_cases hmn : m = σ.tree.newLeaf.1
      · subst hmn
        simp only [upd_same, Option.some.injEq] at hm
        subst hm; simp at hv
      · rw [upd_other _ _ hmn] at hm
        exact List.mem_append_left _ (ha m e hm ev hd hv p pipe hp)
    · rename_i ht
      unfold renderElement at hok
      simp only at hok
      have hb := renderBindings_step env σ.tree.newLeaf.1 h.bindings
        ({ node := σ.tree.newLeaf.1, tag := h.tag }, { σ with tree := σ.tree.newLeaf.2 })
      have hval := renderBindings_value env σ.tree.newLeaf.1 h.bindings
        ({ node := σ.tree.newLeaf.1, tag := h.tag }, { σ with tree := σ.tree.newLeaf.2 })
      generalize h.bindings.foldl (renderBinding env σ.tree.newLeaf.1)
        ({ node := σ.tree.newLeaf.1, tag := h.tag }, { σ with tree := σ.tree.newLeaf.2 }) = s at hb hval hok
      split at hok
      · simp at hok
      · rename_i cs σ1 he
        split at hok
        · simp at hok
        · rename_i t he2
          simp only [Except.ok.injEq, Prod.mk.injEq] at hok
          obtain ⟨-, rfl⟩ := hok
          have hl0 : s.2.locals = σ.locals := hb.locals
          have htag : s.1.tag = h.tag := hb.tag
          have htree : s.2.tree.ctx = σ.tree.ctx := by rw [hb.tree]; rfl
          have ha0 : ArgsIn s.2 D := ha.same htree
          have h1 : ArgsIn σ1 (D ++ mentionedPaths (mentions env (fuel + 1) σ.locals h)) := by
            simp only [mentions, ht]
            rw [mentionedPaths_append]
            unfold renderContent at he
            rw [htag] at he
            split at he
            · simp only [Except.ok.injEq, Prod.mk.injEq] at he
              obtain ⟨-, rfl⟩ := he
              intro m e hm ev hd hv p pipe hp
              simp only [renderBgImage, Tree.setCtx] at hm
              by_cases hmn : m = s.2.tree.newLeaf.1
              · subst hmn
                simp only [upd_same, Option.some.injEq] at hm
                subst hm; simp at hv
              · rw [upd_other _ _ hmn] at hm
                exact List.mem_append_left _ (ha0 m e hm ev hd hv p pipe hp)
            · rename_i hi
              split at he
              · simp only [Except.ok.injEq, Prod.mk.injEq] at he
                obtain ⟨-, rfl⟩ := he
                exact ha0.mono (by simp +contextual)
              · rename_i hv
                rw [if_neg (by simp [hi, hv])]
                have := renderChildren_args hP ih (renderNode_scoped env hP fuel) hE h.children (fun _ => id) [] s.2 he ha0
                rw [hl0] at this
                refine this.mono ?_
                intro x hx
                simp only [List.mem_append] at hx ⊢
                rcases hx with hx | hx
                · exact .inl hx
                · exact .inr (.inr hx)
          intro m e hm ev hd hv p pipe hp
          simp only [setChildren_ctx he2, Tree.setCtx] at hm
          by_cases hmn : m = σ.tree.newLeaf.1
          · subst hmn
            simp only [upd_same, Option.some.injEq] at hm
            subst hm
            simp only at hv
            have h2 := hval.2.1 ev
            rw [hv] at h2
            simp only [Option.or_none] at h2
            apply List.mem_append_right
            simp only [mentions, ht]
            rw [mentionedPaths_append]
            exact List.mem_append_left _ (own_listener_mention h2.symm hp)
          · rw [upd_other _ _ hmn] at hm
            exact h1 m e hm ev hd hv p pipe hp

/-! ## After updates -/

theorem steps_read (s : Shape) (w : Json) (p : List Tok) (hok : s.Ok) {sh : Shape} {x : Json}
    (hi : ∀ i, Tok.idx i ∈ p → i < 2 ^ 64) (ht : ∀ k, Tok.key k ∈ p → '~' ∉ k.toList)
    (h : s.read w p = some (sh, x)) :
    (project s w).steps (p.map (fun t => unescape t.str)) = some (project sh x) := by
  induction p generalizing s w with
  | nil => simp only [Shape.read, Option.some.injEq, Prod.mk.injEq] at h; simp [Json.steps, h]
  | cons t p ih =>
    have hi' : ∀ i, Tok.idx i ∈ p → i < 2 ^ 64 := fun i hm => hi i (by simp [hm])
    have ht' : ∀ k, Tok.key k ∈ p → '~' ∉ k.toList := fun i hm => ht i (by simp [hm])
    cases s with
    | leaf => simp [Shape.read] at h
    | arr s =>
      cases t with
      | key k => simp [Shape.read] at h
      | idx i =>
        simp only [Shape.read, Option.bind_eq_some_iff] at h
        obtain ⟨y, h1, h2⟩ := h
        have hti : '~' ∉ (toString i : String).toList := by
          show '~' ∉ (Nat.repr i).toList
          rw [Nat.toList_repr]
          intro h
          have := Nat.isDigit_of_mem_toDigits (by omega) (by omega) h
          simp [Char.isDigit] at this
        simp only [project, List.map_cons, Json.steps, Tok.str, unescape_plain hti, Json.step, parseIndex_repr]
        rw [parseU64_repr i (hi i (by simp))]
        simp only [Option.bind_some, List.getElem?_map, h1, Option.map_some]
        exact ih s y (by simpa [Shape.Ok] using hok) hi' ht' h2
    | obj fs =>
      cases t with
      | idx k => simp [Shape.read] at h
      | key k =>
        simp only [Shape.read, Option.bind_eq_some_iff] at h
        obtain ⟨y, h1, h2⟩ := h
        simp only [project, List.map_cons, Json.steps, Tok.str, unescape_plain (ht k (by simp)), Json.step,
          get_projectFields, h1, Option.map_some, Option.bind_some]
        refine ih y _ ?_ hi' ht' h2
        simp only [Shape.Ok] at hok
        exact okFields_shape hok.2 (field_eq h1)

theorem splitSlash_free (a : List Char) (h : '/' ∉ a) (rest : List Char) (hr : rest = [] ∨ ∃ x, rest = '/' :: x) :
    splitSlash (a ++ rest) = a :: (splitSlash rest).drop 1 := by
  induction a with
  | nil =>
    rcases hr with rfl | ⟨x, rfl⟩
    · rfl
    · simp [splitSlash]
  | cons c a ih =>
    simp only [List.mem_cons, not_or] at h
    have := ih h.2
    simp only [List.cons_append, splitSlash, if_neg (Ne.symm h.1), this]

theorem tokens_ptr (p : List Tok) (h : ∀ t ∈ p, t.SlashFree) : tokens (ptr p) = p.map Tok.str := by
  unfold tokens
  induction p with
  | nil => simp [ptr, splitSlash]
  | cons t p ih =>
    have h1 : (ptr (t :: p)).toList = '/' :: (t.str.toList ++ (ptr p).toList) := by
      simp [ptr, String.toList_append]
    rw [h1]
    simp only [splitSlash, if_true, List.drop_succ_cons, List.drop_zero]
    rw [splitSlash_free _ (h t (by simp)) _ (ptr_tail_slash p), List.map_cons, ih (fun t ht => h t (by simp [ht]))]
    simp

theorem pointer_read (s : Shape) (w : Json) (p : List Tok) (hok : s.Ok) {sh : Shape} {x : Json}
    (hi : ∀ i, Tok.idx i ∈ p → i < 2 ^ 64) (ht : ∀ k, Tok.key k ∈ p → '~' ∉ k.toList ∧ SlashFree k)
    (h : s.read w p = some (sh, x)) : (project s w).pointer (ptr p) = some (project sh x) := by
  have hs := steps_read s w p hok hi (fun k hk => (ht k hk).1) h
  unfold Json.pointer
  cases p with
  | nil => simp only [Shape.read, Option.some.injEq, Prod.mk.injEq] at h; simp [ptr, h]
  | cons t p =>
    rw [if_neg, if_pos, tokens_ptr]
    · rw [List.map_map]; exact hs
    · intro t' ht'
      cases t' with
      | key k => exact (ht k ht').2
      | idx i => exact idx_slashFree i
    · simp [ptr, String.toList_append]
    · intro h0
      have := congrArg String.toList h0
      simp [ptr, String.toList_append] at this

end Verif
