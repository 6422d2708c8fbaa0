import Verif.View.Render
/-!
# Specification of names and paths in templates (C23-C26)

`mentions` is an environment passing reading of a template: the list of value paths its expressions
denote under lexical scoping.  A local name (alias or loop variable) is visible in the element that
introduces it and below, and nowhere else.
-/
namespace Verif

/-- `c` is a node strictly inside `h`. -/
inductive Html.Below : Html → Html → Prop
  | child {h c : Html} : c ∈ h.children → Below h c
  | step {h c d : Html} : c ∈ h.children → Below c d → Below h d

/-- The names an element introduces by aliases `+name="{..}"`. -/
def aliasNames (bs : List ElementBinding) : List String :=
  bs.filterMap fun b => match b with | .alias n _ => some n | _ => none

/-- No alias is given twice on an element, also counting a link together with its template. -/
def DistinctAliases (env : RenderEnv) (c : Html) : Prop :=
  (aliasNames c.bindings).Nodup ∧
  ∀ id t, c.tag = "link" → .none "href" id ∈ c.bindings → env.templates id = some t →
    (aliasNames (c.bindings ++ t.bindings)).Nodup

/-- No loop variable has the name its own array expression starts with. -/
def LoopNameFresh (c : Html) : Prop :=
  ∀ name count b, .repeat name count b ∈ c.bindings → name ≠ b.head

/-- A condition holds for all nodes inside `h` and inside the templates. -/
def EveryNode (env : RenderEnv) (P : Html → Prop) (h : Html) : Prop :=
  (∀ d, h.Below d → P d) ∧ ∀ id t, env.templates id = some t → P t ∧ ∀ d, t.Below d → P d

/-- What an expression denotes: its first name is a local or a field of the bound value, the others are
fields (or items) of that. -/
def Binder.denotes (ρ : SMap String) (b : Binder) : String :=
  b.tail.foldl (fun p k => p ++ "/" ++ k) (match ρ b.head with | some p => p | none => "/" ++ b.head)

/-- A use of a path: it is mentioned, or a binding is attached to it. -/
inductive Mention where
  | define (path : String)
  | bind (path : String)
deriving DecidableEq, Repr

def spanMentions (ρ : SMap String) (spans : List TextSpan) : List Mention :=
  spans.flatMap fun s => match s with
    | .string _ => []
    | .binder b => [.define (b.denotes ρ), .bind (b.denotes ρ)]

/-- The expressions on an element itself. -/
def ownMentions (ρ : SMap String) : ElementBinding → List Mention
  | .tag _ b => [.define (b.denotes ρ), .bind (b.denotes ρ)]
  | .attribute _ [.string _] => []
  | .attribute _ spans => spanMentions ρ spans
  | .callback _ as => as.flatMap fun a => match a with
    | .binder b => [.define (b.denotes ρ)]
    | _ => []
  | _ => []

/-- The scope an element is in: aliases are introduced one after the other. -/
def aliasScope (ρ : SMap String) : List ElementBinding → SMap String × List Mention
  | [] => (ρ, [])
  | .alias n b :: bs =>
    ((aliasScope (ρ.set n (b.denotes ρ)) bs).1,
      .define (b.denotes ρ) :: (aliasScope (ρ.set n (b.denotes ρ)) bs).2)
  | _ :: bs => aliasScope ρ bs

/-- The paths used by one template child; slot `n` of a repeat over `A` sees its loop variable as
`A/n`. -/
def childMentions (env : RenderEnv) (below : SMap String → Html → List Mention) (ρ : SMap String)
    (c : Html) : List Mention :=
  match resolveChild env c with
  | .error _ => []
  | .ok c =>
    let s := aliasScope ρ c.bindings
    s.2 ++
    match c.asVisibility, c.asRepeat with
    | some (_, b), _ => .define (b.denotes s.1) :: (below s.1 c ++ [.bind (b.denotes s.1)])
    | none, some (name, count, b) =>
      .define (b.denotes s.1) :: .bind (b.denotes s.1) ::
        (List.range count).flatMap fun n =>
          .define (b.denotes s.1 ++ "/" ++ toString n) ::
            below (s.1.set name (b.denotes s.1 ++ "/" ++ toString n)) c
    | none, none => below s.1 c

/-- The paths used by a template, to a nesting depth. -/
def mentions (env : RenderEnv) : Nat → SMap String → Html → List Mention
  | 0, _, _ => []
  | depth + 1, ρ, h =>
    match h.text with
    | some spans => spanMentions ρ spans
    | none =>
      h.bindings.flatMap (ownMentions ρ) ++
      if h.tag = "img" ∨ h.tag ∈ voidTags then []
      else h.children.flatMap (childMentions env (mentions env depth) ρ)

/-- The paths that get bindings. -/
def boundPaths (ms : List Mention) : List String :=
  ms.filterMap fun m => match m with | .bind p => some p | .define _ => none

/-- The paths that are mentioned. -/
def mentionedPaths (ms : List Mention) : List String :=
  ms.filterMap fun m => match m with | .define p => some p | .bind _ => none

end Verif
