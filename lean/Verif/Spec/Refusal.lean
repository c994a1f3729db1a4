import Verif.Spec.Grammar
/-
Which command lines are refused, and with which exception.
-/
namespace PO.Spec

/-- The exception: its class, the option and the token it is about, and the kind of dashes to display. -/
def complaint (c : Cmdline) (cls : ErrClass) (name tok : Str) : Fail :=
  .opt { cls := cls, style := c.canonicalPrefix
         subst := [(str% "option", match cls with | .unknownOption | .ambiguousOption _ => [] | _ => name), (str% "original_token", tok)] }

/-- A name that matches several options exactly, or none exactly and several approximately; these are reported. -/
def Ambiguous (c : Cmdline) (name : Str) (alts : List Str) : Prop :=
  let li := active c.style Style.longCaseInsensitive
  let si := active c.style Style.shortCaseInsensitive
  (2 ≤ (exacts c.desc name li si).length ∧ alts = (exacts c.desc name li si).map (reportedKey · name)) ∨
  (exacts c.desc name li si = [] ∧ 2 ≤ (approximates c.desc name (active c.style Style.allowGuessing) li si).length ∧
    alts = (approximates c.desc name (active c.style Style.allowGuessing) li si).map (reportedKey · name))

/-- The same for a letter in a group, which is not abbreviated. -/
def AmbiguousLetter (c : Cmdline) (a : Char) (alts : List Str) : Prop :=
  let si := active c.style Style.shortCaseInsensitive
  (2 ≤ (exacts c.desc ['-', a] false si).length ∧ alts = (exacts c.desc ['-', a] false si).map (reportedKey · ['-', a])) ∨
  (exacts c.desc ['-', a] false si = [] ∧ 2 ≤ (approximates c.desc ['-', a] false false si).length ∧
    alts = (approximates c.desc ['-', a] false false si).map (reportedKey · ['-', a]))

/-- The first ambiguous letter of a group. -/
inductive GroupFails (c : Cmdline) : Str → Char → List Str → Prop
  | here {a t alts} (h : AmbiguousLetter c a alts) : GroupFails c (a :: t) a alts
  | switch {a t b alts} (ht : t ≠ []) (h : GroupSwitch c a) (g : GroupFails c t b alts) : GroupFails c (a :: t) b alts

/-- A token that is neither plain nor spells options; the exception. -/
inductive Malformed (c : Cmdline) (tok : Str) : ErrClass → Str → Str → Prop
  /-- `--name=` -/
  | long (name : Str) (hu : Unclaimed c tok) (hs : Enabled c Style.allowLong) (ht : tok = '-' :: '-' :: name ++ ['=']) (hn : '=' ∉ name) :
      Malformed c tok (.cmdlineSyntax .emptyAdjacentParameter) name name
  /-- `-name` or `-name=value`, with an ambiguous name -/
  | disguised (lead : Char) (rest : Str) (alts : List Str) (hu : Unclaimed c tok) (hs : Enabled c Style.allowLongDisguise)
      (ht : tok = lead :: rest) (hl : Disguise c lead rest) (ha : Ambiguous c (beforeEq rest) alts) : Malformed c tok (.ambiguousOption alts) tok tok
  /-- `-name=` -/
  | disguisedEq (lead : Char) (name : Str) (d : OptionDesc) (hu : Unclaimed c tok) (hs : Enabled c Style.allowLongDisguise)
      (ht : tok = lead :: name ++ ['=']) (hl : Disguise c lead (name ++ ['='])) (hn : '=' ∉ name) (hd : Denotes c name d) :
      Malformed c tok (.cmdlineSyntax .emptyAdjacentParameter) ('-' :: '-' :: name ++ ['=']) ('-' :: '-' :: name ++ ['='])
  /-- `-abc`, with an ambiguous letter -/
  | short (a : Char) (t : Str) (b : Char) (alts : List Str) (hu : Unclaimed c tok) (hs : Enabled c Style.allowShort ∧ Enabled c Style.allowDashForShort)
      (ht : tok = '-' :: a :: t) (ha : a ≠ '-') (hd : NotDisguised c tok) (hg : GroupFails c (a :: t) b alts) :
      Malformed c tok (.ambiguousOption alts) ['-', b] ['-', b]

/-- The token reported when a later one is at fault: the last of those taken that looks like an option, or else the one of the option itself. -/
inductive Blamed (c : Cmdline) (own : Str) (taken : List Str) : Str → Prop
  | own (h : ∀ v ∈ taken, Plain c v) : Blamed c own taken own
  | last (pre post : List Str) (b : Str) (e : taken = pre ++ b :: post) (hb : ∃ items, Spells c b items) (h : ∀ v ∈ post, Plain c v) : Blamed c own taken b

/-- The token of an option, for exceptions. -/
def Item.token (i : Item) : Str := i.tokens.headD i.name

/-- An option that cannot be completed; the exception. -/
inductive Stuck (c : Cmdline) (i : Item) (other : List Str) : ErrClass → Str → Str → Prop
  | ambiguous (alts : List Str) (h : i.name ≠ []) (ha : Ambiguous c i.name alts) : Stuck c i other (.ambiguousOption alts) i.name i.token
  | unknown (h : i.name ≠ []) (hn : Unknown c i.name) (hu : c.allowUnregistered = false) : Stuck c i other .unknownOption i.name i.token
  /-- too few tokens left -/
  | missing (d : OptionDesc) (h : i.name ≠ []) (hd : Denotes c i.name d) (hm : i.value.length + other.length < d.semantic.minTokens) :
      Stuck c i other (.cmdlineSyntax .missingParameter) (reportedKey d i.name) i.token
  /-- a value for a switch -/
  | extra (d : OptionDesc) (h : i.name ≠ []) (hd : Denotes c i.name d) (hm : d.semantic.minTokens ≤ i.value.length + other.length)
      (hv : i.value ≠ []) (hx : d.semantic.maxTokens = 0) : Stuck c i other (.cmdlineSyntax .extraParameter) (reportedKey d i.name) i.token
  /-- a value is needed, and the next token is malformed -/
  | malformed (d : OptionDesc) (taken rest : List Str) (v : Str) (cls : ErrClass) (n t b : Str) (h : i.name ≠ []) (hd : Denotes c i.name d)
      (hm : d.semantic.minTokens ≤ i.value.length + other.length) (hx : d.semantic.maxTokens = 0 → i.value = [])
      (e : other = taken ++ v :: rest) (hlen : i.value.length + taken.length < d.semantic.minTokens) (htake : ∀ v ∈ taken, Takeable c v)
      (hf : Malformed c v cls n t) (hb : Blamed c i.token taken b) : Stuck c i other cls (reportedKey d i.name) b
  /-- a value is needed, and the next token is a declared option -/
  | option (d : OptionDesc) (taken rest : List Str) (v : Str) (d' : OptionDesc) (h : i.name ≠ []) (hd : Denotes c i.name d)
      (hm : d.semantic.minTokens ≤ i.value.length + other.length) (hx : d.semantic.maxTokens = 0 → i.value = [])
      (e : other = taken ++ v :: rest) (hlen : i.value.length + taken.length < d.semantic.minTokens) (htake : ∀ v ∈ taken, Takeable c v)
      (hs : ∃ items, Spells c v items) (hv : Denotes c v d') : Stuck c i other (.cmdlineSyntax .missingParameter) (reportedKey d i.name) v
  /-- a value is needed, and the next token is an ambiguous option -/
  | options (d : OptionDesc) (taken rest : List Str) (v : Str) (alts : List Str) (h : i.name ≠ []) (hd : Denotes c i.name d)
      (hm : d.semantic.minTokens ≤ i.value.length + other.length) (hx : d.semantic.maxTokens = 0 → i.value = [])
      (e : other = taken ++ v :: rest) (hlen : i.value.length + taken.length < d.semantic.minTokens) (htake : ∀ v ∈ taken, Takeable c v)
      (hs : ∃ items, Spells c v items) (hv : Ambiguous c v alts) : Stuck c i other (.ambiguousOption alts) (reportedKey d i.name) v

/-- The options of a token: the first one that cannot be completed. -/
inductive StuckAll (c : Cmdline) : List Item → List Str → ErrClass → Str → Str → Prop
  | one {i other cls n t} (h : Stuck c i other cls n t) : StuckAll c [i] other cls n t
  | head {i is other cls n t} (hi : is ≠ []) (h : Stuck c i [] cls n t) : StuckAll c (i :: is) other cls n t
  | tail {i o is other cls n t} (h : Completes c i [] o) (s : StuckAll c is other cls n t) : StuckAll c (i :: is) other cls n t

/-- Reading from left to right, the first token at fault. -/
inductive Breaks (c : Cmdline) : List Str → ErrClass → Str → Str → Prop
  | malformed {tok rest cls n t} (h : Malformed c tok cls n t) : Breaks c (tok :: rest) cls n t
  | stuck {tok items rest cls n t} (h : Spells c tok items) (hs : StuckAll c items rest cls n t) : Breaks c (tok :: rest) cls n t
  | plain {tok rest cls n t} (h : Plain c tok) (hd : tok ≠ ['-', '-']) (b : Breaks c rest cls n t) : Breaks c (tok :: rest) cls n t
  | option {tok items taken os rest cls n t} (h : Spells c tok items) (hc : CompletesAll c items taken os) (b : Breaks c rest cls n t) :
      Breaks c (tok :: taken ++ rest) cls n t

/-- All tokens are read, but the name under which an option is reported is ambiguous. A switch in a group has no token to report. -/
inductive Clashes (c : Cmdline) : List Opt → Fail → Prop
  | here {o os alts} (t : Str) (ts : List Str) (h : o.stringKey ≠ []) (ha : Ambiguous c o.stringKey alts) (ht : o.originalTokens = t :: ts) :
      Clashes c (o :: os) (complaint c (.ambiguousOption alts) o.stringKey t)
  | undefined {o os alts} (h : o.stringKey ≠ []) (ha : Ambiguous c o.stringKey alts) (ht : o.originalTokens = []) :
      Clashes c (o :: os) (.ub .emptyOriginalTokens)
  | positional {o os f} (h : o.stringKey = []) (t : Clashes c os f) : Clashes c (o :: os) f
  | keep {o os f} (h : o.stringKey ≠ []) (hr : Unknown c o.stringKey ∨ ∃ d, Denotes c o.stringKey d ∧ ¬ HasRoom d o)
      (t : Clashes c os f) : Clashes c (o :: os) f
  | take {o ps os f} (d : OptionDesc) (h : o.stringKey ≠ []) (hd : Denotes c o.stringKey d) (hr : HasRoom d o)
      (hp : ∀ p ∈ ps, Loose p)
      (hmax : ps.length + o.value.length = d.semantic.maxTokens ∨
        ps.length + o.value.length < d.semantic.maxTokens ∧ ∀ p, os.head? = some p → ¬ Loose p)
      (t : Clashes c os f) : Clashes c (o :: (ps ++ os)) f

/-- How a command line is refused. -/
inductive Refused (c : Cmdline) (args : List Str) : Fail → Prop
  | reading {cls n t} (h : Breaks c args cls n t) : Refused c args (complaint c cls n t)
  | gathering {os f} (h : Reads c args os) (hc : Clashes c os f) : Refused c args f
  | labelling {os os'} (p : Positional) (h : Reads c args os) (hg : Gathers c os os') (hp : c.positional = some p) (ht : p.trailing = [])
      (hn : p.names.length < (os'.filter (·.stringKey = [])).length) : Refused c args .tooManyPositional

end PO.Spec
