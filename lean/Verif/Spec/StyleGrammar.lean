import Verif.Spec.StyleParser
import Verif.Spec.GrammarAll
/-
C142: the language of command lines for a program with a style parser of its own, as a grammar. `p` is the style parser.
-/
namespace PO.Spec

/-- A single token in which neither the style parser nor the library sees an option. -/
def PlainBy (c : Cmdline) (p : StyleParser) (v : Str) : Prop := p [v] = .ok ([], [v]) ∧ Plain c v

/-- A single token in which the style parser sees an option or, if it does not, the library. -/
def LooksBy (c : Cmdline) (p : StyleParser) (v : Str) : Prop :=
  (∃ o os rest, p [v] = .ok (o :: os, rest)) ∨ p [v] = .ok ([], [v]) ∧ ∃ items, Spells c v items

/-- A single token that the style parser refuses or, if it does not, the library. -/
inductive RefusedToken (c : Cmdline) (p : StyleParser) (v : Str) : Fail → Prop
  | own {f} (h : p [v] = .error f) : RefusedToken c p v f
  | malformed {cls n t} (h : p [v] = .ok ([], [v])) (hm : Malformed c v cls n t) : RefusedToken c p v (complaint c cls n t)

/-- A token that an option which needs a value will take as such. -/
def TakeableBy (c : Cmdline) (p : StyleParser) (v : Str) : Prop := PlainBy c p v ∨ LooksBy c p v ∧ Unknown c v

/-- What an option becomes, with the value tokens `taken` from those that follow. -/
inductive CompletesBy (c : Cmdline) (p : StyleParser) (o : Opt) : List Str → Opt → Prop
  | nameless (h : o.stringKey = []) : CompletesBy c p o [] o
  | unknown (h : o.stringKey ≠ []) (hn : Unknown c o.stringKey) (hu : c.allowUnregistered = true) : CompletesBy c p o [] { o with unregistered := true }
  | known (d : OptionDesc) (taken : List Str) (h : o.stringKey ≠ []) (hd : Denotes c o.stringKey d)
      (hlen : taken.length = d.semantic.minTokens - o.value.length) (htake : ∀ v ∈ taken, TakeableBy c p v)
      (hswitch : d.semantic.maxTokens = 0 → o.value = []) :
      CompletesBy c p o taken { o with stringKey := reportedKey d o.stringKey, value := o.value ++ taken, originalTokens := o.originalTokens ++ taken }

/-- Several options: only the last one takes further tokens. -/
inductive CompletesAllBy (c : Cmdline) (p : StyleParser) : List Opt → List Str → List Opt → Prop
  | one {o taken o'} (h : CompletesBy c p o taken o') : CompletesAllBy c p [o] taken [o']
  | cons {o o' os taken os'} (h : CompletesBy c p o [] o') (t : CompletesAllBy c p os taken os') : CompletesAllBy c p (o :: os) taken (o' :: os')

/-- The option an item is. -/
def Item.option (i : Item) : Opt := { stringKey := i.name, value := i.value, originalTokens := i.tokens }

/-- Reading the tokens from left to right. The style parser is asked first, and sees all tokens that are left. -/
inductive ReadsBy (c : Cmdline) (p : StyleParser) : List Str → List Opt → Prop
  | nil : ReadsBy c p [] []
  /-- a positional argument -/
  | plain {tok rest os} (hp : p (tok :: rest) = .ok ([], tok :: rest)) (h : Plain c tok) (hd : tok ≠ ['-', '-']) (t : ReadsBy c p rest os) :
      ReadsBy c p (tok :: rest) ({ value := [tok], originalTokens := [tok] } :: os)
  /-- the terminator -/
  | terminator {rest} (hp : p (['-', '-'] :: rest) = .ok ([], ['-', '-'] :: rest)) (h : Unclaimed c ['-', '-']) :
      ReadsBy c p (['-', '-'] :: rest) (rest.map fun t => { value := [t], originalTokens := [t], positionKey := intMax })
  /-- options the library sees -/
  | option {tok items taken os rest more} (hp : p (tok :: (taken ++ rest)) = .ok ([], tok :: (taken ++ rest))) (h : Spells c tok items)
      (hc : CompletesAllBy c p (items.map Item.option) taken os) (t : ReadsBy c p rest more) : ReadsBy c p (tok :: (taken ++ rest)) (os ++ more)
  /-- options the style parser returns -/
  | own {args l taken os rest more} (hp : p args = .ok (l, taken ++ rest)) (hl : l ≠ [])
      (hc : CompletesAllBy c p l taken os) (t : ReadsBy c p rest more) : ReadsBy c p args (os ++ more)

/-- The token reported when a later one is at fault: the last of those taken that looks like an option, or else the one of the option itself. -/
inductive BlamedBy (c : Cmdline) (p : StyleParser) (own : Str) (taken : List Str) : Str → Prop
  | own (h : ∀ v ∈ taken, PlainBy c p v) : BlamedBy c p own taken own
  | last (pre post : List Str) (b : Str) (e : taken = pre ++ b :: post) (hb : LooksBy c p b) (h : ∀ v ∈ post, PlainBy c p v) : BlamedBy c p own taken b

/-- The token at which the values of an option run out: `key` is the name of the option, `own` its token. -/
inductive RunsOut (c : Cmdline) (p : StyleParser) (own key : Str) (taken : List Str) (v : Str) : Fail → Prop
  /-- it is refused; the exception then is about the option -/
  | refused {f b} (hf : RefusedToken c p v f) (hb : BlamedBy c p own taken b) : RunsOut c p own key taken v (f.addContext key b c.canonicalPrefix)
  /-- it is a declared option -/
  | option {d} (hs : LooksBy c p v) (hv : Denotes c v d) : RunsOut c p own key taken v (complaint c (.cmdlineSyntax .missingParameter) key v)
  /-- it is ambiguous -/
  | options {alts} (hs : LooksBy c p v) (hv : Ambiguous c v alts) : RunsOut c p own key taken v (complaint c (.ambiguousOption alts) key v)

/-- The token of an option, for exceptions. -/
def tokenOf (o : Opt) : Str := o.originalTokens.headD o.stringKey

/-- An option that cannot be completed; the exception. -/
inductive StuckBy (c : Cmdline) (p : StyleParser) (o : Opt) (other : List Str) : Fail → Prop
  | ambiguous (alts : List Str) (h : o.stringKey ≠ []) (ha : Ambiguous c o.stringKey alts) :
      StuckBy c p o other (complaint c (.ambiguousOption alts) o.stringKey (tokenOf o))
  | unknown (h : o.stringKey ≠ []) (hn : Unknown c o.stringKey) (hu : c.allowUnregistered = false) :
      StuckBy c p o other (complaint c .unknownOption o.stringKey (tokenOf o))
  /-- too few tokens left -/
  | missing (d : OptionDesc) (h : o.stringKey ≠ []) (hd : Denotes c o.stringKey d) (hm : o.value.length + other.length < d.semantic.minTokens) :
      StuckBy c p o other (complaint c (.cmdlineSyntax .missingParameter) (reportedKey d o.stringKey) (tokenOf o))
  /-- a value for a switch -/
  | extra (d : OptionDesc) (h : o.stringKey ≠ []) (hd : Denotes c o.stringKey d) (hm : d.semantic.minTokens ≤ o.value.length + other.length)
      (hv : o.value ≠ []) (hx : d.semantic.maxTokens = 0) :
      StuckBy c p o other (complaint c (.cmdlineSyntax .extraParameter) (reportedKey d o.stringKey) (tokenOf o))
  /-- a value is needed, and the next token is none -/
  | runsOut (d : OptionDesc) (taken rest : List Str) (v : Str) (f : Fail) (h : o.stringKey ≠ []) (hd : Denotes c o.stringKey d)
      (hm : d.semantic.minTokens ≤ o.value.length + other.length) (hx : d.semantic.maxTokens = 0 → o.value = [])
      (e : other = taken ++ v :: rest) (hlen : o.value.length + taken.length < d.semantic.minTokens) (htake : ∀ v ∈ taken, TakeableBy c p v)
      (hf : RunsOut c p (tokenOf o) (reportedKey d o.stringKey) taken v f) : StuckBy c p o other f

/-- Several options: the first one that cannot be completed. -/
inductive StuckAllBy (c : Cmdline) (p : StyleParser) : List Opt → List Str → Fail → Prop
  | one {o other f} (h : StuckBy c p o other f) : StuckAllBy c p [o] other f
  | head {o os other f} (hi : os ≠ []) (h : StuckBy c p o [] f) : StuckAllBy c p (o :: os) other f
  | tail {o o' os other f} (h : CompletesBy c p o [] o') (s : StuckAllBy c p os other f) : StuckAllBy c p (o :: os) other f

/-- Reading from left to right, the first token at fault. -/
inductive BreaksBy (c : Cmdline) (p : StyleParser) : List Str → Fail → Prop
  /-- the style parser fails -/
  | fails {tok rest f} (hp : p (tok :: rest) = .error f) : BreaksBy c p (tok :: rest) f
  | malformed {tok rest cls n t} (hp : p (tok :: rest) = .ok ([], tok :: rest)) (h : Malformed c tok cls n t) :
      BreaksBy c p (tok :: rest) (complaint c cls n t)
  | stuck {tok items rest f} (hp : p (tok :: rest) = .ok ([], tok :: rest)) (h : Spells c tok items)
      (hs : StuckAllBy c p (items.map Item.option) rest f) : BreaksBy c p (tok :: rest) f
  | stuckOwn {tok rest l args' f} (hp : p (tok :: rest) = .ok (l, args')) (hl : l ≠ []) (hs : StuckAllBy c p l args' f) : BreaksBy c p (tok :: rest) f
  | plain {tok rest f} (hp : p (tok :: rest) = .ok ([], tok :: rest)) (h : Plain c tok) (hd : tok ≠ ['-', '-']) (b : BreaksBy c p rest f) :
      BreaksBy c p (tok :: rest) f
  | option {tok items taken os rest f} (hp : p (tok :: (taken ++ rest)) = .ok ([], tok :: (taken ++ rest))) (h : Spells c tok items)
      (hc : CompletesAllBy c p (items.map Item.option) taken os) (b : BreaksBy c p rest f) : BreaksBy c p (tok :: (taken ++ rest)) f
  | own {tok args l taken os rest f} (hp : p (tok :: args) = .ok (l, taken ++ rest)) (hl : l ≠ []) (hc : CompletesAllBy c p l taken os)
      (b : BreaksBy c p rest f) : BreaksBy c p (tok :: args) f

/-- How a command line is refused. -/
inductive RefusedBy (c : Cmdline) (p : StyleParser) (args : List Str) : Fail → Prop
  | reading {f} (h : BreaksBy c p args f) : RefusedBy c p args f
  | gathering {os f} (h : ReadsBy c p args os) (hc : ClashesAll c os f) : RefusedBy c p args f
  | labelling {os os'} (q : Positional) (h : ReadsBy c p args os) (hg : GathersAll c os os') (hp : c.positional = some q) (ht : q.trailing = [])
      (hn : q.names.length < (os'.filter (·.stringKey = [])).length) : RefusedBy c p args .tooManyPositional

end PO.Spec
