import Verif.Model.VarMap
/-
Programs that read configuration files and the environment only, and when two of them declare the same options as far as these sources
are concerned.
-/
namespace PO.FileSources

/-- A source that is no command line: a configuration file, narrow or wide, or the environment with a name mapper. -/
inductive Source
  | file (text : Str) (unregistered : Bool)
  | wfile (text : WStr) (unregistered : Bool)
  | environment (entries : List Str) (mapper : Str → Str)

/-- `store(parse_config_file(…), vm)` or `store(parse_environment(…), vm)`; the exception, if there is one. -/
def Source.load (env : Env) (desc : List OptionDesc) (m : VarMap) : Source → VarMap × Option Fail
  | .file t u =>
    match parseConfigFile t desc u with
    | .error f => (m, some f)
    | .ok p => store p m
  | .wfile t u =>
    match wparseConfigFile env t desc u with
    | .error f => (m, some f)
    | .ok p => wstore p m
  | .environment es mapper =>
    match parseEnvironment es desc mapper with
    | .error f => (m, some f)
    | .ok p => store p m

/-- The sources one after the other, up to the first exception. -/
def loadAll (env : Env) (desc : List OptionDesc) : VarMap → List Source → VarMap × Option Fail
  | m, [] => (m, none)
  | m, s :: ss =>
    match s.load env desc m with
    | (m, some f) => (m, some f)
    | (m, none) => loadAll env desc m ss

/-- The same names, default, notifications and meaning of given values; only the numbers of tokens, what no token means (`implicit_value`), the
name of the value and the description may differ. -/
structure SameButCounts (d d' : OptionDesc) : Prop where
  short : d'.shortName = d.shortName
  long : d'.longNames = d.longNames
  parse : ∀ v t ts utf8, d'.semantic.parse v (t :: ts) utf8 = d.semantic.parse v (t :: ts) utf8
  composing : d'.semantic.isComposing = d.semantic.isComposing
  required : d'.semantic.isRequired = d.semantic.isRequired
  default : d'.semantic.applyDefault = d.semantic.applyDefault
  notify : d'.semantic.notify = d.semantic.notify

/-- The second option is the first one, but for a default. -/
structure GainsDefault (d d' : OptionDesc) (a : Any) : Prop where
  short : d'.shortName = d.shortName
  long : d'.longNames = d.longNames
  parse : ∀ v t ts utf8, d'.semantic.parse v (t :: ts) utf8 = d.semantic.parse v (t :: ts) utf8
  composing : d'.semantic.isComposing = d.semantic.isComposing
  required : d'.semantic.isRequired = d.semantic.isRequired
  none : d.semantic.applyDefault = none
  default : d'.semantic.applyDefault = some a
  notify : d'.semantic.notify = d.semantic.notify

/-- What `vm[name]` shows of a value, and what will be notified. -/
def shown (v : VarValue) : Any × Bool × Option (Any → List Event × Option Fail) := (v.v, v.defaulted, v.semantic.map (·.notify))

end PO.FileSources
