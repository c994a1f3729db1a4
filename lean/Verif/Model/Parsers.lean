import Verif.Model.Cmdline
/-
The sources of options: src/parsers.cpp, src/config_file.cpp, environment_iterator.hpp and the
command line front end in detail/parsers.hpp.
-/
namespace PO

/-- `basic_parsed_options<char>` (parsers.hpp:38-59). `prefix` is `m_options_prefix`. -/
structure Parsed where
  desc : List OptionDesc
  options : List Opt
  pre : Nat := 0

/-- `basic_option<wchar_t>`. -/
structure WOpt where
  stringKey : Str := []
  positionKey : Int := -1
  value : List WStr := []
  originalTokens : List WStr := []
  unregistered : Bool := false
  caseInsensitive : Bool := false
  deriving DecidableEq, Repr

/-- `basic_parsed_options<wchar_t>` (parsers.hpp:64-86). -/
structure WParsed where
  desc : List OptionDesc
  options : List WOpt
  utf8 : Parsed
  pre : Nat

/-- `woption_from_option` (src/parsers.cpp:72-88); `case_insensitive` is not copied. -/
def wopt (env : Env) (o : Opt) : Except Fail WOpt :=
  match o.value.mapM env.fromUtf8, o.originalTokens.mapM env.fromUtf8 with
  | some v, some t =>
    .ok { stringKey := o.stringKey, positionKey := o.positionKey, unregistered := o.unregistered
          value := v, originalTokens := t }
  | _, _ => .error .conversion

/-- Element-wise conversion, first failure wins. -/
def mapOk {α β : Type} (f : α → Except Fail β) : List α → Except Fail (List β)
  | [] => .ok []
  | x :: xs =>
    match f x with
    | .error e => .error e
    | .ok y =>
      match mapOk f xs with
      | .error e => .error e
      | .ok ys => .ok (y :: ys)

/-- The conversion constructor (src/parsers.cpp:91-99). -/
def Parsed.toWide (env : Env) (p : Parsed) : Except Fail WParsed :=
  match mapOk (wopt env) p.options with
  | .error f => .error f
  | .ok os => .ok { desc := p.desc, options := os, utf8 := p, pre := p.pre }

/-! ### Command line -/

/-- `basic_command_line_parser<char>::run` (detail/parsers.hpp:84-98). -/
def Cmdline.parse (c : Cmdline) (args : List Str) : Except Fail Parsed :=
  match c.run args with
  | .error f => .error f
  | .ok os => .ok { desc := c.desc, options := os, pre := c.canonicalPrefix }

/-- The tokens taken from `argc`/`argv` (detail/parsers.hpp:23-29): `argv` lists the first `argc`
entries. -/
def argTokens (argv : List Str) : List Str := argv.drop 1

/-- `parse_command_line` (detail/parsers.hpp:101-111). -/
def parseCommandLine (argv : List Str) (desc : List OptionDesc) (style : Nat := 0)
    (ext : Option (Str → Str × Str) := none) : Except Fail Parsed :=
  match ({ desc, additional := ext } : Cmdline).setStyle style with
  | .error f => .error f
  | .ok c => c.parse (argTokens argv)

/-- `basic_command_line_parser<wchar_t>`: `to_internal` on every token
(src/convert.cpp:155-160), then as above, then widen the result. -/
def Cmdline.wparse (c : Cmdline) (env : Env) (args : List WStr) : Except Fail WParsed :=
  match args.mapM env.toUtf8 with
  | none => .error .conversion
  | some as =>
    match c.parse as with
    | .error f => .error f
    | .ok p => p.toWide env

inductive CollectMode | includePositional | excludePositional
  deriving DecidableEq, Repr

/-- `collect_unrecognized` (detail/parsers.hpp:113-130). -/
def collectUnrecognized (mode : CollectMode) : List Opt → List Str
  | [] => []
  | o :: os =>
    if o.unregistered ∨ (mode = .includePositional ∧ o.positionKey ≠ -1) then
      o.originalTokens ++ collectUnrecognized mode os
    else collectUnrecognized mode os

/-! ### Configuration files -/

/-- State of `common_config_file_iterator` fixed at construction. -/
structure ConfigIter where
  allowedOptions : SSet
  allowedPrefixes : SSet
  allowUnregistered : Bool
  deriving DecidableEq, Repr

def overlapMsg (name neighbour : Str) : Str :=
  str% "options '" ++ name ++ str% "' and '" ++ neighbour ++
    str% "*' will both match the same arguments from the configuration file"

/-- `common_config_file_iterator::add_option` (src/config_file.cpp:38-66), on
`allowed_prefixes`. `*i` in the message is the element `i` ends up at, after the decrement. -/
def addOption (prefixes : SSet) (name : Str) : Except Fail SSet :=
  match name.getLast? with
  | none => .error (.ub .emptyOptionName)
  | some '*' =>
    let s := name.dropLast
    let i := prefixes.lowerBound s
    let bad1 := match prefixes[i]? with | some x => findSub x s == some 0 | none => false
    let bad2 := if i = 0 then false
      else match prefixes[i - 1]? with | some x => findSub s x == some 0 | none => false
    if bad1 || bad2 then
      .error (.error (overlapMsg name ((prefixes[if i = 0 then i else i - 1]?).getD [])))
    else .ok (prefixes.insert s)
  | some _ => .ok prefixes

/-- The constructor's loop (src/config_file.cpp:24-36). -/
def addOptions : SSet → List Str → Except Fail SSet
  | ps, [] => .ok ps
  | ps, n :: ns =>
    match addOption ps n with
    | .error f => .error f
    | .ok ps' => addOptions ps' ns

def ConfigIter.make (allowed : SSet) (allowUnregistered : Bool) : Except Fail ConfigIter :=
  match addOptions [] allowed with
  | .error f => .error f
  | .ok ps => .ok { allowedOptions := allowed, allowedPrefixes := ps, allowUnregistered }

/-- `allowed_option` (src/config_file.cpp:132-145). -/
def ConfigIter.allowed (it : ConfigIter) (s : Str) : Bool :=
  if it.allowedOptions.has s then true
  else
    let i := it.allowedPrefixes.lowerBound s
    if i = 0 then false
    else match it.allowedPrefixes[i - 1]? with
      | some x => findSub s x == some 0
      | none => false

/-- Comment and whitespace stripping of a line (src/config_file.cpp:91-94). -/
def stripLine (s : Str) : Str :=
  trimWs (match findChar s '#' with | some n => s.take n | none => s)

/-- What one line does: nothing, change `m_prefix`, or produce an option. -/
inductive LineResult
  | skip
  | section_ (pre : Str)
  | option (o : Opt)
  deriving DecidableEq, Repr

/-- Body of the loop of `get` (src/config_file.cpp:89-126) for a line already stripped. -/
def ConfigIter.line (it : ConfigIter) (pre : Str) (s : Str) : Except Fail LineResult :=
  if s = [] then .ok .skip
  else if s.head? = some '[' ∧ s.getLast? = some ']' then
    let p := substr s 1 (s.length - 2)
    match p.getLast? with
    | none => .error (.ub .emptySection)
    | some '.' => .ok (.section_ p)
    | some _ => .ok (.section_ (p ++ ['.']))
  else
    match findChar s '=' with
    | some n =>
      let name := pre ++ trimWs (s.take n)
      let value := trimWs (s.drop (n + 1))
      let registered := it.allowed name
      if !registered && !it.allowUnregistered then .error (errUnknown name)
      else .ok (.option { stringKey := name, value := [value], unregistered := !registered
                          originalTokens := [name, value] })
    | none => .error (errConfigSyntax s .unrecognizedLine)

/-- Repeated `get` until end of file (src/config_file.cpp:83-129 driven by `copy`,
src/parsers.cpp:124-127). -/
def ConfigIter.lines (it : ConfigIter) : Str → List Str → Except Fail (List Opt)
  | _, [] => .ok []
  | pre, l :: ls =>
    match it.line pre (stripLine l) with
    | .error f => .error f
    | .ok .skip => it.lines pre ls
    | .ok (.section_ p) => it.lines p ls
    | .ok (.option o) =>
      match it.lines pre ls with
      | .error f => .error f
      | .ok os => .ok (o :: os)

def abbreviatedMsg : Str :=
  str% "abbreviated option names are not permitted in options configuration files"

/-- Collecting the allowed names (src/parsers.cpp:108-120). -/
def allowedNames : List OptionDesc → SSet → Except Fail SSet
  | [], acc => .ok acc
  | d :: ds, acc =>
    if d.longName = [] then .error (.error abbreviatedMsg) else allowedNames ds (acc.insert d.longName)

/-- `parse_config_file(istream&, desc, allow_unregistered)` (src/parsers.cpp:102-130) on the
contents of the stream. -/
def parseConfigFile (text : Str) (desc : List OptionDesc) (allowUnregistered : Bool := false) :
    Except Fail Parsed :=
  match allowedNames desc [] with
  | .error f => .error f
  | .ok allowed =>
    match ConfigIter.make allowed allowUnregistered with
    | .error f => .error f
    | .ok it =>
      match it.lines [] (getlines '\n' text) with
      | .error f => .error f
      | .ok os => .ok { desc, options := os }

/-- Successive results of `std::getline(std::wistream&, std::wstring&)`; as `getlinesAux`. -/
def wgetlinesAux (sep : Nat) : WStr → WStr → List WStr
  | [], cur => if cur = [] then [] else [cur]
  | x :: xs, cur => if x = sep then cur :: wgetlinesAux sep xs [] else wgetlinesAux sep xs (cur ++ [x])

/-- `ConfigIter.lines` for `basic_config_file_iterator<wchar_t>`: each line goes through `to_internal` when it is read
(detail/config_file.hpp:165-176). -/
def ConfigIter.wlines (it : ConfigIter) (env : Env) : Str → List WStr → Except Fail (List Opt)
  | _, [] => .ok []
  | pre, l :: ls =>
    match env.toUtf8 l with
    | none => .error .conversion
    | some l =>
      match it.line pre (stripLine l) with
      | .error f => .error f
      | .ok .skip => it.wlines env pre ls
      | .ok (.section_ p) => it.wlines env p ls
      | .ok (.option o) =>
        match it.wlines env pre ls with
        | .error f => .error f
        | .ok os => .ok (o :: os)

/-- `parse_config_file(std::wistream&, desc, allow_unregistered)` (src/parsers.cpp:102-130). -/
def wparseConfigFile (env : Env) (text : WStr) (desc : List OptionDesc) (allowUnregistered : Bool := false) :
    Except Fail WParsed :=
  match allowedNames desc [] with
  | .error f => .error f
  | .ok allowed =>
    match ConfigIter.make allowed allowUnregistered with
    | .error f => .error f
    | .ok it =>
      match it.wlines env [] (wgetlinesAux 10 text []) with
      | .error f => .error f
      | .ok os => ({ desc, options := os } : Parsed).toWide env

/-- What opening and reading a file yields. -/
inductive FileState
  | missing
  /-- `bad`: `strm.bad()` after reading `text` -/
  | text (t : Str) (bad : Bool)

/-- `parse_config_file(const char* filename, ...)` (src/parsers.cpp:146-168). -/
def parseConfigFileNamed (filename : Str) (file : FileState) (desc : List OptionDesc)
    (allowUnregistered : Bool := false) : Except Fail Parsed :=
  match file with
  | .missing => .error (.readingFile filename)
  | .text t bad =>
    match parseConfigFile t desc allowUnregistered with
    | .error f => .error f
    | .ok p => if bad then .error (.readingFile filename) else .ok p

/-! ### Environment -/

/-- `environment_iterator::get` (environment_iterator.hpp:33-46) for one entry. -/
def splitEnv (s : Str) : Except Fail (Str × Str) :=
  match findChar s '=' with
  | none => .error (.ub .envNoEquals)
  | some n => .ok (s.take n, s.drop (n + 1))

/-- `parse_environment(desc, name_mapper)` (src/parsers.cpp:200-218) on the entries of `environ`. -/
def parseEnvironmentLoop (mapper : Str → Str) : List Str → Except Fail (List Opt)
  | [] => .ok []
  | e :: es =>
    match splitEnv e with
    | .error f => .error f
    | .ok (n, v) =>
      match parseEnvironmentLoop mapper es with
      | .error f => .error f
      | .ok os =>
        if mapper n = [] then .ok os else .ok ({ stringKey := mapper n, value := [v] } :: os)

def parseEnvironment (environ : List Str) (desc : List OptionDesc) (mapper : Str → Str) :
    Except Fail Parsed :=
  match parseEnvironmentLoop mapper environ with
  | .error f => .error f
  | .ok os => .ok { desc, options := os }

/-- `prefix_name_mapper::operator()` (src/parsers.cpp:227-239). -/
def prefixMapper (pre : Str) (s : Str) : Str :=
  if findSub s pre = some 0 then toLower (s.drop pre.length) else []

/-- `parse_environment(desc, prefix)` (src/parsers.cpp:245-250). -/
def parseEnvironmentPrefix (environ : List Str) (desc : List OptionDesc) (pre : Str) :
    Except Fail Parsed := parseEnvironment environ desc (prefixMapper pre)

end PO
