import Verif.Spec.Refusal
/-
C61, C63, C21 for all option sets: an option may be declared so that it is reported without a name (`,foo`). After reading it counts as a positional
argument, whatever values it has.
-/
namespace PO.Spec

/-- One value and one token, as a positional argument has. -/
def OneEach (o : Opt) : Prop := o.value.length = 1 ∧ o.originalTokens.length = 1

/-- `Gathers`, where only what has one value and one token can be taken. -/
inductive GathersAll (c : Cmdline) : List Opt → List Opt → Prop
  | nil : GathersAll c [] []
  | positional {o os os'} (h : o.stringKey = []) (t : GathersAll c os os') : GathersAll c (o :: os) (o :: os')
  | keep {o os os'} (h : o.stringKey ≠ []) (hr : Unknown c o.stringKey ∨ ∃ d, Denotes c o.stringKey d ∧ ¬ HasRoom d o)
      (t : GathersAll c os os') : GathersAll c (o :: os) (o :: os')
  | take {o ps os os'} (d : OptionDesc) (h : o.stringKey ≠ []) (hd : Denotes c o.stringKey d) (hr : HasRoom d o)
      (hp : ∀ p ∈ ps, Loose p ∧ OneEach p)
      (hmax : ps.length + o.value.length = d.semantic.maxTokens ∨
        ps.length + o.value.length < d.semantic.maxTokens ∧ ∀ p, os.head? = some p → ¬ Loose p)
      (t : GathersAll c os os') :
      GathersAll c (o :: (ps ++ os)) ({ o with value := o.value ++ ps.flatMap (·.value), originalTokens := o.originalTokens ++ ps.flatMap (·.originalTokens) } :: os')

/-- `Clashes`, and the failed assertions: an option takes an option without name that has not one value and one token. -/
inductive ClashesAll (c : Cmdline) : List Opt → Fail → Prop
  | here {o os alts} (t : Str) (ts : List Str) (h : o.stringKey ≠ []) (ha : Ambiguous c o.stringKey alts) (ht : o.originalTokens = t :: ts) :
      ClashesAll c (o :: os) (complaint c (.ambiguousOption alts) o.stringKey t)
  | undefined {o os alts} (h : o.stringKey ≠ []) (ha : Ambiguous c o.stringKey alts) (ht : o.originalTokens = []) :
      ClashesAll c (o :: os) (.ub .emptyOriginalTokens)
  /-- the assertion about the values, or the one about the tokens -/
  | assertion {o ps p os} (d : OptionDesc) (h : o.stringKey ≠ []) (hd : Denotes c o.stringKey d) (hr : HasRoom d o)
      (hp : ∀ p ∈ ps, Loose p ∧ OneEach p) (hroom : ps.length + o.value.length < d.semantic.maxTokens) (hl : Loose p) (hs : ¬ OneEach p) :
      ClashesAll c (o :: (ps ++ p :: os)) (.ub (if p.value.length = 1 then .originalNotSingle else .valueNotSingle))
  | positional {o os f} (h : o.stringKey = []) (t : ClashesAll c os f) : ClashesAll c (o :: os) f
  | keep {o os f} (h : o.stringKey ≠ []) (hr : Unknown c o.stringKey ∨ ∃ d, Denotes c o.stringKey d ∧ ¬ HasRoom d o)
      (t : ClashesAll c os f) : ClashesAll c (o :: os) f
  | take {o ps os f} (d : OptionDesc) (h : o.stringKey ≠ []) (hd : Denotes c o.stringKey d) (hr : HasRoom d o)
      (hp : ∀ p ∈ ps, Loose p ∧ OneEach p)
      (hmax : ps.length + o.value.length = d.semantic.maxTokens ∨
        ps.length + o.value.length < d.semantic.maxTokens ∧ ∀ p, os.head? = some p → ¬ Loose p)
      (t : ClashesAll c os f) : ClashesAll c (o :: (ps ++ os)) f

/-- How a command line is refused. -/
inductive RefusedAll (c : Cmdline) (args : List Str) : Fail → Prop
  | reading {cls n t} (h : Breaks c args cls n t) : RefusedAll c args (complaint c cls n t)
  | gathering {os f} (h : Reads c args os) (hc : ClashesAll c os f) : RefusedAll c args f
  | labelling {os os'} (p : Positional) (h : Reads c args os) (hg : GathersAll c os os') (hp : c.positional = some p) (ht : p.trailing = [])
      (hn : p.names.length < (os'.filter (·.stringKey = [])).length) : RefusedAll c args .tooManyPositional

/-- The characters of the command line, with a blank for each token. -/
def textLength (args : List Str) : Nat := (args.map (·.length + 1)).sum

end PO.Spec
