import Verif.Spec.Cmdline
/-
The language of command lines, as a grammar: which token sequences are accepted, and what they mean.
Nothing here refers to the parsing code.
-/
namespace PO.Spec

/-- An option as written in one token: the name, the value attached to it, and the tokens on record. -/
structure Item where
  name : Str
  value : List Str
  tokens : List Str

/-- The declared option a letter of a short-option group stands for. -/
def DenotesLetter (c : Cmdline) (a : Char) (d : OptionDesc) : Prop :=
  let si := active c.style Style.shortCaseInsensitive
  exacts c.desc ['-', a] false si = [d] ∨ exacts c.desc ['-', a] false si = [] ∧ approximates c.desc ['-', a] false false si = [d]

/-- A switch inside a group: the letters after it are further options. -/
def GroupSwitch (c : Cmdline) (a : Char) : Prop :=
  Enabled c Style.allowSticky ∧ ∃ d, DenotesLetter c a d ∧ d.semantic.maxTokens = 0

/-- The letters of a short-option group: switches, and then one option, with the rest as its value. -/
inductive Group (c : Cmdline) (tok : Str) : Str → List Item → Prop
  | last (a : Char) (h : (∃ d, DenotesLetter c a d) ∨ UnknownShort c a) : Group c tok [a] [⟨['-', a], [], [tok]⟩]
  | value (a : Char) (v : Str) (hv : v ≠ []) (h : (∃ d, DenotesLetter c a d) ∨ UnknownShort c a) (hs : ¬ GroupSwitch c a) :
      Group c tok (a :: v) [⟨['-', a], [v], [tok]⟩]
  | switch (a : Char) (t : Str) (items : List Item) (ht : t ≠ []) (h : GroupSwitch c a) (g : Group c tok t items) :
      Group c tok (a :: t) (⟨['-', a], [], []⟩ :: items)

/-- `lead :: rest` has the shape of a disguised long option: `-name` or, with slashes enabled, `/name`. -/
def Disguise (c : Cmdline) (lead : Char) (rest : Str) : Prop :=
  rest ≠ [] ∧ (lead = '-' ∧ rest.head? ≠ some '-' ∨ lead = '/' ∧ Enabled c Style.allowSlashForShort)

/-- The part before the equal sign. -/
def beforeEq (s : Str) : Str := s.takeWhile (· ≠ '=')

/-- Disguised long options are not enabled, or the token is none. -/
def NotDisguised (c : Cmdline) (tok : Str) : Prop :=
  Enabled c Style.allowLongDisguise → ∀ lead rest, tok = lead :: rest → Disguise c lead rest → Unknown c (beforeEq rest)

/-- The options written in a token. -/
inductive Spells (c : Cmdline) (tok : Str) : List Item → Prop
  /-- recognised by the additional parser -/
  | additional (f : Str → Str × Str) (hf : c.additional = some f) (hn : (f tok).1 ≠ []) :
      Spells c tok [⟨(f tok).1, if (f tok).2 = [] then [] else [(f tok).2], []⟩]
  /-- `--name` -/
  | long (name : Str) (hu : Unclaimed c tok) (hs : Enabled c Style.allowLong) (ht : tok = '-' :: '-' :: name)
      (hn : '=' ∉ name) (h0 : name ≠ []) : Spells c tok [⟨name, [], [tok]⟩]
  /-- `--name=value` -/
  | longEq (name v : Str) (hu : Unclaimed c tok) (hs : Enabled c Style.allowLong) (ht : tok = '-' :: '-' :: name ++ '=' :: v)
      (hn : '=' ∉ name) (hv : v ≠ []) : Spells c tok [⟨name, [v], [tok]⟩]
  /-- `-name` or `/name`, with a declared name -/
  | disguised (lead : Char) (name : Str) (d : OptionDesc) (hu : Unclaimed c tok) (hs : Enabled c Style.allowLongDisguise)
      (ht : tok = lead :: name) (hl : Disguise c lead name) (hn : '=' ∉ name) (hd : Denotes c name d) :
      Spells c tok [⟨name, [], ['-' :: '-' :: name]⟩]
  /-- `-name=value` or `/name=value`, with a declared name -/
  | disguisedEq (lead : Char) (name v : Str) (d : OptionDesc) (hu : Unclaimed c tok) (hs : Enabled c Style.allowLongDisguise)
      (ht : tok = lead :: name ++ '=' :: v) (hl : Disguise c lead (name ++ '=' :: v)) (hn : '=' ∉ name) (hv : v ≠ [])
      (hd : Denotes c name d) : Spells c tok [⟨name, [v], ['-' :: '-' :: name ++ '=' :: v]⟩]
  /-- `-abc` -/
  | short (a : Char) (t : Str) (items : List Item) (hu : Unclaimed c tok) (hs : Enabled c Style.allowShort ∧ Enabled c Style.allowDashForShort)
      (ht : tok = '-' :: a :: t) (ha : a ≠ '-') (hd : NotDisguised c tok) (hg : Group c tok (a :: t) items) : Spells c tok items
  /-- `/avalue` -/
  | slash (a : Char) (t : Str) (hu : Unclaimed c tok) (hs : Enabled c Style.allowShort ∧ Enabled c Style.allowSlashForShort)
      (ht : tok = '/' :: a :: t) (hd : NotDisguised c tok) : Spells c tok [⟨['-', a], if t = [] then [] else [t], [tok]⟩]

/-- A token that is no option, nor looks like one. -/
structure Plain (c : Cmdline) (tok : Str) : Prop where
  unclaimed : Unclaimed c tok
  long : Enabled c Style.allowLong → 3 ≤ tok.length → ¬ ['-', '-'] <+: tok
  disguised : NotDisguised c tok
  short : Enabled c Style.allowShort → Enabled c Style.allowDashForShort → ∀ a t, tok = '-' :: a :: t → a = '-'
  slash : Enabled c Style.allowShort → Enabled c Style.allowSlashForShort → ∀ a t, tok ≠ '/' :: a :: t

/-- A token that an option which needs a value will take as such: one that is not an option, or that looks like one but is not the name of one. -/
def Takeable (c : Cmdline) (v : Str) : Prop := Plain c v ∨ (∃ items, Spells c v items) ∧ Unknown c v

/-- What an option as written becomes, with the value tokens `taken` from those that follow. -/
inductive Completes (c : Cmdline) (i : Item) : List Str → Opt → Prop
  /-- `--=value` -/
  | nameless (h : i.name = []) : Completes c i [] { value := i.value, originalTokens := i.tokens }
  /-- unknown, but unregistered options are allowed -/
  | unknown (h : i.name ≠ []) (hn : Unknown c i.name) (hu : c.allowUnregistered = true) :
      Completes c i [] { stringKey := i.name, value := i.value, originalTokens := i.tokens, unregistered := true }
  /-- declared: as many tokens as it still needs -/
  | known (d : OptionDesc) (taken : List Str) (h : i.name ≠ []) (hd : Denotes c i.name d)
      (hlen : taken.length = d.semantic.minTokens - i.value.length) (htake : ∀ v ∈ taken, Takeable c v)
      (hswitch : d.semantic.maxTokens = 0 → i.value = []) :
      Completes c i taken { stringKey := reportedKey d i.name, value := i.value ++ taken, originalTokens := i.tokens ++ taken }

/-- The options of a token: only the last one takes further tokens. -/
inductive CompletesAll (c : Cmdline) : List Item → List Str → List Opt → Prop
  | one {i taken o} (h : Completes c i taken o) : CompletesAll c [i] taken [o]
  | cons {i o is taken os} (h : Completes c i [] o) (t : CompletesAll c is taken os) : CompletesAll c (i :: is) taken (o :: os)

/-- Reading the tokens from left to right. -/
inductive Reads (c : Cmdline) : List Str → List Opt → Prop
  | nil : Reads c [] []
  /-- a positional argument -/
  | plain {tok rest os} (h : Plain c tok) (hd : tok ≠ ['-', '-']) (t : Reads c rest os) :
      Reads c (tok :: rest) ({ value := [tok], originalTokens := [tok] } :: os)
  /-- the terminator; what follows is marked by the position key -/
  | terminator {rest} (h : Unclaimed c ['-', '-']) :
      Reads c (['-', '-'] :: rest) (rest.map fun t => { value := [t], originalTokens := [t], positionKey := intMax })
  /-- options -/
  | option {tok items taken os rest more} (h : Spells c tok items) (hc : CompletesAll c items taken os) (t : Reads c rest more) :
      Reads c (tok :: taken ++ rest) (os ++ more)

/-- An option that may take more values. -/
def HasRoom (d : OptionDesc) (o : Opt) : Prop :=
  d.semantic.minTokens < d.semantic.maxTokens ∧ o.value.length < d.semantic.maxTokens

/-- A positional argument that an option before it may take: not one after the terminator. -/
def Loose (o : Opt) : Prop := o.stringKey = [] ∧ o.positionKey ≠ intMax

/-- Options that may take more values take the positional arguments that follow, as many as they can. -/
inductive Gathers (c : Cmdline) : List Opt → List Opt → Prop
  | nil : Gathers c [] []
  /-- a positional argument -/
  | positional {o os os'} (h : o.stringKey = []) (t : Gathers c os os') : Gathers c (o :: os) (o :: os')
  /-- an option that takes no more -/
  | keep {o os os'} (h : o.stringKey ≠ []) (hr : Unknown c o.stringKey ∨ ∃ d, Denotes c o.stringKey d ∧ ¬ HasRoom d o)
      (t : Gathers c os os') : Gathers c (o :: os) (o :: os')
  /-- an option that takes the positional arguments `ps` -/
  | take {o ps os os'} (d : OptionDesc) (h : o.stringKey ≠ []) (hd : Denotes c o.stringKey d) (hr : HasRoom d o)
      (hp : ∀ p ∈ ps, Loose p)
      (hmax : ps.length + o.value.length = d.semantic.maxTokens ∨
        ps.length + o.value.length < d.semantic.maxTokens ∧ ∀ p, os.head? = some p → ¬ Loose p)
      (t : Gathers c os os') :
      Gathers c (o :: (ps ++ os)) ({ o with value := o.value ++ ps.flatMap (·.value), originalTokens := o.originalTokens ++ ps.flatMap (·.originalTokens) } :: os')

/-- The case flag that goes with a name: a name of more than two characters, or of two of which the first is no dash, is a long one. -/
def caseFlag (c : Cmdline) (key : Str) : Bool :=
  if 2 < key.length ∨ key.length = 2 ∧ key.head? ≠ some '-' then active c.style Style.longCaseInsensitive
  else active c.style Style.shortCaseInsensitive

/-- Numbering and naming the positional arguments, from number `n` on. -/
inductive Labels (c : Cmdline) : Nat → List Opt → List Opt → Prop
  | nil {n} : Labels c n [] []
  | named {n o os os'} (h : o.stringKey ≠ []) (t : Labels c n os os') :
      Labels c n (o :: os) ({ o with caseInsensitive := caseFlag c o.stringKey } :: os')
  | positional {n o os os'} (name : Str) (h : o.stringKey = [])
      (hn : match c.positional with
        | none => name = []
        | some p => p.names[n]? = some name ∨ p.names.length ≤ n ∧ p.trailing ≠ [] ∧ name = p.trailing)
      (t : Labels c (n + 1) os os') :
      Labels c n (o :: os) ({ o with stringKey := name, positionKey := n, caseInsensitive := caseFlag c name } :: os')

end PO.Spec
