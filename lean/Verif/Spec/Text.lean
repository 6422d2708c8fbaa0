import Verif.Html.Reader
/-!
# Words of a text (C60)
-/
namespace Verif

/-- The words of a text: what stands between white space. -/
def words (isSpace : Char → Bool) (s : List Char) : List (List Char) := (s.splitOnP isSpace).filter fun w => !w.isEmpty

/-- The binders of a text, in order. -/
def TextSpan.binders (spans : List TextSpan) : List Binder := spans.filterMap fun | .binder b => some b | .string _ => none

/-- The words of the static spans, one list for each. -/
def TextSpan.words (spans : List TextSpan) : List (List (List Char)) := spans.filterMap fun | .string s => some (Verif.words isSpace s.toList) | .binder _ => none

/-- A text of a document, at any depth. -/
inductive Html.HasText : Html → List TextSpan → Prop
  | here {tag bs spans cs} : HasText (.mk tag bs (some spans) cs) spans
  | deeper {tag bs text cs c spans} : c ∈ cs → HasText c spans → HasText (.mk tag bs text cs) spans

end Verif
