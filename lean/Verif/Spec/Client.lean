import Verif.Model.Client
import Verif.Spec.Csv
/-!
# The client's little languages
-/

namespace TD.Spec

/-- `t` is a decimal numeral with value `n`. -/
inductive Numeral (digit : Char → Option Nat) : Text → Nat → Prop
  | one (c : Char) (d : Nat) (h : digit c = some d) : Numeral digit [c] d
  | more (t : Text) (n : Nat) (c : Char) (d : Nat) (ht : Numeral digit t n) (h : digit c = some d) :
      Numeral digit (t ++ [c]) (10 * n + d)

/-- Names of the distance measures (`DistanceMeasures`). -/
def measureName : Measure → String
  | .l1 => "l1"
  | .l2 => "l2"
  | .lInf => "l_inf"
  | .cosine => "cosine"

/-- Names of the prior beliefs (`PriorBelief`). -/
def priorName : Prior → String
  | .fixed => "fixed"
  | .voted => "voted"
  | .count => "count"
  | .uniform => "uniform"

/-- Nothing, or one newline. -/
def OptNewline (t : Text) : Prop := t = [] ∨ t = ['\n']

/-- The iterator a specification text stands for, if the iteration limit is
`maxLimit`.  Thresholds are texts without `-` that `parseFloat` accepts. -/
inductive Describes {α : Type} (digit : Char → Option Nat) (parseFloat : Text → Option α) (maxLimit : Int) :
    Text → IterCfg α → Prop
  /-- `fixed-<n>` -/
  | fixed (ds nl : Text) (n : Nat) (hds : Numeral digit ds n) (hnl : OptNewline nl)
      (hn : (n : Int) ≤ maxLimit) :
      Describes digit parseFloat maxLimit ("fixed-".toList ++ ds ++ nl) (.fixed n)
  /-- `<measure>-convergence-<threshold>` -/
  | conv (m : Measure) (th : Text) (x : α) (hne : th ≠ []) (hth : '-' ∉ th)
      (hx : parseFloat th = some x) :
      Describes digit parseFloat maxLimit ((measureName m).toList ++ "-convergence-".toList ++ th)
        (.conv (some m) x maxLimit)
  /-- `<measure>-convergence-<threshold>-limit-<n>` -/
  | convLimit (m : Measure) (th ds nl : Text) (x : α) (n : Nat) (hne : th ≠ []) (hth : '-' ∉ th)
      (hx : parseFloat th = some x) (hds : Numeral digit ds n) (hnl : OptNewline nl)
      (hn : (n : Int) ≤ maxLimit) :
      Describes digit parseFloat maxLimit
        ((measureName m).toList ++ "-convergence-".toList ++ th ++ "-limit-".toList ++ ds ++ nl)
        (.conv (some m) x n)

/-- The value a parameter text stands for, depending on the name. -/
inductive Means {α : Type} (digit : Char → Option Nat) (parseFloat : Text → Option α) :
    Text → Text → PVal α → Prop
  | iterator (t : Text) (it : IterCfg α) (h : Describes digit parseFloat 200 t it) :
      Means digit parseFloat "iterator".toList t (.iterator it)
  | priors (p : Prior) : Means digit parseFloat "priors".toList (priorName p).toList (.prior p)
  | num (name t : Text) (x : α) (h1 : name ≠ "iterator".toList) (h2 : name ≠ "priors".toList)
      (h : parseFloat t = some x) : Means digit parseFloat name t (.num x)

/-- `name=value` with optional whitespace around both; the first `=` counts. -/
def Assignment (t name value : Text) : Prop :=
  ∃ a b, t = a ++ '=' :: b ∧ '=' ∉ a ∧ Stripped a name ∧ Stripped b value

/-! ### Algorithm objects -/
section
variable {S V X α : Type} [DecidableEq S] [DecidableEq V] [DecidableEq X] [Arith α]

/-- The documented labels. -/
def labelName : AlgLabel → String
  | .voting => "voting"
  | .sums => "sums"
  | .averageLog => "average_log"
  | .investment => "investment"
  | .pooledInvestment => "pooled_investment"
  | .truthfinder => "truthfinder"
  | .crh => "crh"
  | .usums => "usums"

/-- The documented parameters. -/
def accepts : AlgLabel → List String
  | .voting => []
  | .sums => ["iterator", "priors"]
  | .averageLog => ["iterator", "priors"]
  | .investment => ["iterator", "priors", "g"]
  | .pooledInvestment => ["iterator", "priors", "g"]
  | .truthfinder => ["iterator", "priors", "dampening_factor", "influence_param", "initial_trust"]
  | .crh => ["iterator", "priors", "eps"]
  | .usums => ["iterator", "priors"]

/-- The constructor of the algorithm has a parameter of this name. -/
def Accepts (c : AlgLabel) (name : Text) : Prop := ∃ n ∈ accepts c, name = n.toList

/-- The value has the kind that `algorithm_parameter` gives to values of that name. -/
def WellKinded (name : Text) : PVal α → Prop
  | .iterator _ => name = "iterator".toList
  | .prior _ => name = "priors".toList
  | .num _ => name ≠ "iterator".toList ∧ name ≠ "priors".toList

/-- The number given for a parameter, or its default. -/
def NumOr (params : Dict Text (PVal α)) (name : String) (default x : α) : Prop :=
  params.get? name.toList = some (.num x) ∨ (params.get? name.toList = none ∧ x = default)

/-- The iterator given, or the default. -/
def IterOr (params : Dict Text (PVal α)) (default it : IterCfg α) : Prop :=
  params.get? "iterator".toList = some (.iterator it) ∨
  (params.get? "iterator".toList = none ∧ it = default)

/-- The priors given, or the default. -/
def PriorOr (params : Dict Text (PVal α)) (default : Prior) (p : Option Prior) : Prop :=
  (∃ q, params.get? "priors".toList = some (.prior q) ∧ p = some q) ∨
  (params.get? "priors".toList = none ∧ p = some default)

/-- The algorithm object that belongs to a label and parameters: documented defaults,
replaced by the parameters given. -/
inductive Constructed (params : Dict Text (PVal α)) : AlgLabel → AnyAlg α → Prop
  | voting : Constructed params .voting .voting
  | sums (it : IterCfg α) (p : Option Prior) (h1 : IterOr params (.fixed 20) it)
      (h2 : PriorOr params .fixed p) : Constructed params .sums (.iter ⟨.sums, it, p⟩)
  | averageLog (it : IterCfg α) (p : Option Prior) (h1 : IterOr params (.fixed 20) it)
      (h2 : PriorOr params .fixed p) : Constructed params .averageLog (.iter ⟨.averageLog, it, p⟩)
  | usums (it : IterCfg α) (p : Option Prior) (h1 : IterOr params (.ord 20) it)
      (h2 : PriorOr params .count p) : Constructed params .usums (.iter ⟨.unboundedSums, it, p⟩)
  | investment (g : α) (it : IterCfg α) (p : Option Prior) (h0 : NumOr params "g" (Arith.lit 12 10) g)
      (h1 : IterOr params (.fixed 20) it) (h2 : PriorOr params .voted p) :
      Constructed params .investment (.iter ⟨.investment g, it, p⟩)
  | pooledInvestment (g : α) (it : IterCfg α) (p : Option Prior)
      (h0 : NumOr params "g" (Arith.lit 14 10) g)
      (h1 : IterOr params (.fixed 10) it) (h2 : PriorOr params .uniform p) :
      Constructed params .pooledInvestment (.iter ⟨.pooledInvestment g, it, p⟩)
  | crh (eps : α) (it : IterCfg α) (p : Option Prior)
      (h0 : NumOr params "eps" (Arith.lit 1 100000) eps)
      (h1 : IterOr params (.fixed 20) it) (h2 : PriorOr params .fixed p) :
      Constructed params .crh (.iter ⟨.crh eps, it, p⟩)
  | truthfinder (rho gamma t0 : α) (it : IterCfg α) (p : Option Prior)
      (h3 : NumOr params "influence_param" (Arith.lit 1 2) rho)
      (h4 : NumOr params "dampening_factor" (Arith.lit 3 10) gamma)
      (h5 : NumOr params "initial_trust" (Arith.lit 9 10) t0)
      (h1 : IterOr params (.conv (some .cosine) (Arith.lit 1 1000) 1000000) it)
      (h2 : PriorOr params .fixed p) :
      Constructed params .truthfinder (.iter ⟨.truthFinder rho gamma t0, it, p⟩)

/-! ### Output -/

/-- The caller wants this field: it was requested, or no field was. -/
def Wanted (fields : Option (List Field)) (f : Field) : Prop :=
  fields = none ∨ fields = some [] ∨ ∃ fs, fields = some fs ∧ f ∈ fs

/-- The belief dictionary has unique variables, each with at least one value. -/
def Shaped (r : Result S V X α) : Prop :=
  r.belief.keys.Nodup ∧ ∀ v d, r.belief.get? v = some d → d ≠ []

/-- What the output shows for a field. -/
inductive Shows (lt : X → X → Bool) (r : Result S V X α) (sup : Option (Dict V X × (Nat → Nat → Nat))) :
    Field → OutVal S V X α → Prop
  | time : Shows lt r sup .time (.time r.time)
  | iterations : Shows lt r sup .iterations (.iterations r.iterations)
  | trust : Shows lt r sup .trust (.trust r.trust)
  | belief : Shows lt r sup .belief (.belief r.belief)
  | trustStats : Shows lt r sup .trustStats (.trustStats r.trustStats)
  | beliefStats : Shows lt r sup .beliefStats (.beliefStats r.beliefStats)
  /-- the accuracy -/
  | accuracy (values : Dict V X) (pick : Nat → Nat → Nat) (x : α) (hs : sup = some (values, pick))
      (h : getAccuracy values pick r = .ok x) : Shows lt r sup .accuracy (.accuracy (some x))
  /-- no accuracy if it is not defined -/
  | noAccuracy (values : Dict V X) (pick : Nat → Nat → Nat) (hs : sup = some (values, pick))
      (h : getAccuracy values pick r = .error .valueError) : Shows lt r sup .accuracy (.accuracy none)
  /-- every variable with its most believed values in ascending order -/
  | mostBelieved (d : Dict V (List X)) (hk : d.keys = r.belief.keys)
      (h : ∀ v xs, d.get? v = some xs → ∃ best, r.mostBelieved v = .ok best ∧ xs.Perm best ∧
        xs.Pairwise fun a b => lt b a = false) : Shows lt r sup .mostBelieved (.mostBelieved d)

end

end TD.Spec
