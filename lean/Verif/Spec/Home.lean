import Verif.Model.Home
import Verif.Spec.JsonText
/-!
# What a page offers
-/

namespace TD.Spec
variable {α : Type}

/-- The value of a member of an object. -/
def member (v : WJson α) (name : String) : Option (WJson α) :=
  match v with
  | .obj l => l.lookup name.toList
  | _ => none

/-- The option `label`, shown as `shown`, of the list of algorithms (form.html:16-19). -/
def OffersAlgorithm (v : WJson α) (label shown : Text) : Prop :=
  ∃ l, member v "algorithm_labels" = some (.obj l) ∧ (label, .str shown) ∈ l

/-- The option `measure` of the list of distance measures (form.html:155-158). -/
def OffersMeasure (v : WJson α) (measure : Text) : Prop :=
  ∃ l, member v "distance_measures" = some (.arr l) ∧ .str measure ∈ l

/-- The text as HTML, but with quotation marks. -/
def htmlText (t : Text) : Text :=
  t.flatMap fun c =>
    if c = '&' then "&amp;".toList else if c = '<' then "&lt;".toList else if c = '>' then "&gt;".toList
    else if c = '\'' then "&#39;".toList else [c]

/-- A text without the characters `&`, `<`, `>`, `'`. -/
def PlainText (t : Text) : Prop := ∀ c ∈ t, c ≠ '&' ∧ c ≠ '<' ∧ c ≠ '>' ∧ c ≠ '\''

end TD.Spec
