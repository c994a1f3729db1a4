import Verif.Tests.SourcesTest
/- /repo/test/variable_map_test.cpp, required_test.cpp, optional_test.cpp, exception_txt_test.cpp,
transcribed. -/
namespace PO.Test
open PO

def runStore (ds : List OptionDesc) (args : String) (m : VarMap := {}) : VarMap × Option Fail :=
  match ({ desc := ds } : Cmdline).parse (words args) with
  | .error f => (m, some f)
  | .ok p => store p m

def entries (m : VarMap) : List (String × Any) := m.map.map fun e => (String.ofList e.1, e.2.v)
def sv (s : String) : Any := some (.scalar (.str (L s)))
def iv (i : Int) : Any := some (.scalar (.lex 0 i))
def bv (b : Bool) : Any := some (.scalar (.bool b))

-- test_variable_map
def vmDesc := [od "foo,f" unt1, od "bar,b" (sem vstr), od "biz,z" (sem vstr), od "baz" unt1, od "output,o" unt1]
#guard decide (entries (runStore vmDesc "--foo='12' --bar=11 -z3 -ofoo").1 =
  [("bar", sv "11"), ("biz", sv "3"), ("foo", sv "'12'"), ("output", sv "foo")])
def vmDesc2 := vmDesc ++ [od "zee" (sem boolSwitch), od "zak" (sem { vint with storeTo := some 7 }), od "opt" (sem boolSwitch)]
#guard decide (entries (runStore vmDesc2 "--zee --zak=13").1 = [("opt", bv false), ("zak", iv 13), ("zee", bv true)])
#guard decide ((runStore vmDesc2 "--zee --zak=13").1.notify.1 = [.assign 7 (.scalar (.lex 0 13))])
def vmDesc3 := [od "vee" (sem { vstr with dflt := some (.scalar (.str (L "42")), L "42") }), od "voo" (sem vstr),
  od "iii" (sem { vint with dflt := some (.scalar (.lex 0 123), L "123") })]
#guard decide (entries (runStore vmDesc3 "--voo=1").1 = [("iii", iv 123), ("vee", sv "42"), ("voo", sv "1")])
def imp (i : Int) (t : TypedValue := vint) : TypedValue := { t with implicit := some (.scalar (.lex 0 i), L (toString i)) }
def dfl (i : Int) (t : TypedValue := vint) : TypedValue := { t with dflt := some (.scalar (.lex 0 i), L (toString i)) }
def vmDesc4 := [od "imp" (sem (imp 100)), od "iim" (sem (dfl 201 (imp 200))), od "mmp,m" (sem (dfl 124 (imp 123))), od "foo" (sem vint)]
#guard decide (entries (runStore vmDesc4 "--imp=1 -m --foo=1").1 =
  [("foo", iv 1), ("iim", iv 201), ("imp", iv 1), ("mmp", iv 123)])

-- test_semantic_values
def vveci : TypedValue := { type := .vector (.lex 0) }
def semDesc := [od "foo" unt1, od "bar" (sem vint), od "biz" (sem vvec), od "baz" (sem { vvec with multitoken := true }),
  od "int" (sem { vveci with notifier := some 1 })]
def o (n : String) (vs : List String) : Opt := { stringKey := L n, value := vs.map L }
def semOpts := [o "foo" ["1"], o "biz" ["a"], o "baz" ["q"], o "bar" ["1"], o "biz" ["b x"], o "baz" ["q", "w"]]
def svec (l : List String) : Any := some (.vector .str (l.map fun s => .str (L s)))
def ivec (l : List Int) : Any := some (.vector (.lex 0) (l.map fun i => .lex 0 i))
#guard decide (entries (store { desc := semDesc, options := semOpts } {}).1 =
  [("bar", iv 1), ("baz", svec ["q", "q", "w"]), ("biz", svec ["a", "b x"]), ("foo", sv "1")])
def semOpts2 := semOpts ++ [o "int" ["13"]]
#guard decide ((store { desc := semDesc, options := semOpts2 } {}).1.notify = ([.callback 1 (.vector (.lex 0) [.lex 0 13])], none))
def failCls (r : VarMap × Option Fail) : Option ErrClass :=
  match r.2 with | some (.opt e) => some e.cls | _ => none
#guard decide (failCls (store { desc := semDesc, options := semOpts2 ++ [o "bar" ["2"]] } {}) = some .multipleOccurrences)
#guard decide (failCls (store { desc := semDesc, options := semOpts2 ++ [o "int" ["2 3"]] } {}) = some (.validation .invalidOptionValue))

-- test_priority
def priDesc := [od "first" (sem vveci), od "second" (sem { vveci with dflt := some (.vector (.lex 0) [.lex 0 1], []) }),
  od "aux" (sem vveci), od "include" (sem { vveci with composing := true })]
def pri1 := (runStore priDesc "--first=1 --aux=10 --first=3 --include=1").1
#guard decide (entries pri1 = [("aux", ivec [10]), ("first", ivec [1, 3]), ("include", ivec [1]), ("second", ivec [1])])
#guard decide (entries (runStore priDesc "--first=12 --second=7 --include=7" pri1).1 =
  [("aux", ivec [10]), ("first", ivec [1, 3]), ("include", ivec [1, 7]), ("second", ivec [7])])

-- test_multiple_assignments_with_different_option_description
def mDesc1 := [od "help,h" unt, od "includes" (sem { vvec with composing := true })]
def mDesc2 := [od "output,o" unt]
#guard decide (entries (runStore mDesc1 "--includes=b" (runStore mDesc2 "" (runStore mDesc1 "--help --includes=a").1).1).1 =
  [("help", sv ""), ("includes", svec ["a", "b"])])

-- optional_test.cpp
def vopt (a : Nat) : TypedValue := { type := .optional (.lex 0), storeTo := some a }
#guard decide ((runStore [od "foo,f" (sem (vopt 1)), od "bar,b" (sem (vopt 2)), od "baz,z" (sem (vopt 3))] "--foo=12 --bar 1").1.notify =
  ([.assign 2 (.optional (.lex 0) (some (.lex 0 1))), .assign 1 (.optional (.lex 0) (some (.lex 0 12)))], none))

-- exception_txt_test.cpp
def msg (f : Option Fail) : String :=
  match f with
  | some (.opt e) => (match e.what 100 with | some s => String.ofList s | none => "<none>")
  | some (.error m) => String.ofList m
  | some (.invalidStyle m) => String.ofList m
  | some .tooManyPositional => "too many positional options have been specified on the command line"
  | some (.readingFile n) => "can not read options configuration file '" ++ String.ofList n ++ "'"
  | some _ => "<other>"
  | none => "<no error>"
open Style in
def sUnix := unixStyle
open Style in
def sDash := allowDashForShort ||| allowShort ||| shortAllowAdjacent ||| allowSticky
open Style in
def sSlash := allowSlashForShort ||| allowShort ||| shortAllowAdjacent
open Style in
def sLong := allowLong ||| longAllowAdjacent ||| allowGuessing
def both (r : Except Fail Parsed) : Option Fail :=
  match r with
  | .error f => some f
  | .ok p => match store p {} with
    | (_, some f) => some f
    | (m, none) => m.notify.2
def cl (ds : List OptionDesc) (style : Nat) (args : String) : String :=
  msg (both (parseCommandLine (words args) ds style))
def cf (ds : List OptionDesc) (text : String) : String := msg (both (parseConfigFile (L text) ds))

def e1 := [od "int-option,d" (sem vint)]
#guard cl e1 sUnix "program -d A_STRING" == "the argument ('A_STRING') for option '--int-option' is invalid"
#guard cl e1 sLong "program --int A_STRING" == "the argument ('A_STRING') for option '--int-option' is invalid"
#guard cl e1 sDash "program -d A_STRING" == "the argument ('A_STRING') for option '-d' is invalid"
#guard cl e1 sSlash "program /d A_STRING" == "the argument ('A_STRING') for option '/d' is invalid"
#guard cf e1 "int-option=A_STRING" == "the argument ('A_STRING') for option 'int-option' is invalid"
def e2 := [od "cfgfile,e" (sem vstr), od "output,o" (sem vstr)]
#guard cl e2 sUnix "program -e -e output.txt" == "the required argument for option '--cfgfile' is missing"
#guard cl e2 sLong "program --cfgfile" == "the required argument for option '--cfgfile' is missing"
#guard cl e2 sDash "program -e -e output.txt" == "the required argument for option '-e' is missing"
def e3 := [od "cfgfile1,c" (sem vstr), od "cfgfile2,o" (sem vstr), od "good,g" unt, od "output,c" (sem vstr), od "output" (sem vstr)]
#guard cl e3 sUnix "program -ggc file -o anotherfile" == "option '-c' is ambiguous and matches '--cfgfile1', and '--output'"
#guard cl e3 sLong "program --cfgfile file --cfgfile anotherfile" == "option '--cfgfile' is ambiguous and matches '--cfgfile1', and '--cfgfile2'"
#guard cl e3 sDash "program -ggc file -o anotherfile" == "option '-c' is ambiguous"
#guard cl e3 sSlash "program /c file /o anotherfile" == "option '/c' is ambiguous"
#guard cf e3 "output=output.txt\n" == "option 'output' is ambiguous and matches different versions of 'output'"
def e4 := [od "cfgfile,c" (sem vstr)]
#guard cl e4 sUnix "program -c file -c anotherfile" == "option '--cfgfile' cannot be specified more than once"
#guard cl e4 sLong "program --cfgfi file --cfgfi anotherfile" == "option '--cfgfile' cannot be specified more than once"
#guard cl e4 sDash "program -c file -c anotherfile" == "option '-c' cannot be specified more than once"
#guard cl e4 sSlash "program /c file /c anotherfile" == "option '/c' cannot be specified more than once"
#guard cf e4 "cfgfile=output.txt\ncfgfile=output.txt\n" == "option 'cfgfile' cannot be specified more than once"
def e5 := [od "good,g" unt]
#guard cl e5 sUnix "program -ggc file" == "unrecognised option '-ggc'"
#guard cl e5 sLong "program --cfgfile file" == "unrecognised option '--cfgfile'"
#guard cl e5 sDash "program -ggc file" == "unrecognised option '-ggc'"
#guard cl e5 sSlash "program /c file" == "unrecognised option '/c'"
#guard cf e5 "cfgfile=output.txt\n" == "unrecognised option 'cfgfile'"
def e6 := [od "bool_option,b" (sem { type := .scalar .bool })]
def choices := " is invalid. Valid choices are 'on|off', 'yes|no', '1|0' and 'true|false'"
#guard cl e6 sUnix "program -b file" == "the argument ('file') for option '--bool_option'" ++ choices
#guard cl e6 sLong "program --bool_optio file" == "the argument ('file') for option '--bool_option'" ++ choices
#guard cl e6 sDash "program -b file" == "the argument ('file') for option '-b'" ++ choices
#guard cl e6 sSlash "program /b file" == "the argument ('file') for option '/b'" ++ choices
#guard cf e6 "bool_option=output.txt\n" == "the argument ('output.txt') for option 'bool_option'" ++ choices
def e7 := [od "cfgfile,c" (sem vstrm), od "good,g" unt, od "output,o" (sem vstr)]
#guard cl e7 sUnix "program -c file c -o fritz hugo" == "option '--cfgfile' only takes a single argument"
#guard cl e7 sLong "program --cfgfil file c --outpu fritz hugo" == "option '--cfgfile' only takes a single argument"
#guard cl e7 sDash "program -c file c -o fritz hugo" == "option '-c' only takes a single argument"
#guard cl e7 sSlash "program /c file c /o fritz hugo" == "option '/c' only takes a single argument"
def e8 := [od "cfgfile,c" (sem { vint with zeroTokens := true }), od "other,o" (sem vstr)]
#guard cl e8 sUnix "program -c" == "option '--cfgfile' requires at least one argument"
#guard cl e8 sLong "program --cfg --o name" == "option '--cfgfile' requires at least one argument"
#guard cl e8 sDash "program -c -o name" == "option '-c' requires at least one argument"
#guard cl e8 sSlash "program /c" == "option '/c' requires at least one argument"
def vreq : TypedValue := { vstr with required := true }
def e9 := [od "cfgfile,c" (sem vreq), od "good,g" unt, od "output,o" (sem vreq)]
#guard cl e9 sUnix "program -g" == "the option '--cfgfile' is required but missing"
#guard cl e9 sLong "program --g" == "the option '--cfgfile' is required but missing"
#guard cl e9 sDash "program -g" == "the option '-c' is required but missing"
#guard cl e9 sSlash "program /g" == "the option '/c' is required but missing"
#guard cf e9 "" == "the option 'cfgfile' is required but missing"
#guard msg (both (parseConfigFileNamed (L "no_such_file") .missing e4 true)) == "can not read options configuration file 'no_such_file'"
#guard cf [od "outpu*" (sem vstr), od "outp*" (sem vstr)] "output1=whichone\noutput2=whichone\n" ==
  "options 'outpu*' and 'outp*' will both match the same arguments from the configuration file"
#guard cf [] "funny wierd line\n" == "the options configuration file contains an invalid line 'funny wierd line'"
#guard cf [od ",o" (sem vstr)] "o=output.txt\n" == "abbreviated option names are not permitted in options configuration files"
#guard msg (both (({ desc := [], positional := some { names := [L "t", L "t"] } } : Cmdline).parse (words "1 2 3"))) ==
  "too many positional options have been specified on the command line"

def styleMsg (what one other kind : String) := "boost::program_options misconfiguration: choose one or other of 'command_line_style::" ++
  one ++ "' (" ++ what ++ ") or 'command_line_style::" ++ other ++ " for " ++ kind ++ " options."
def e10 := [od "output,o" (sem vstr)]
#guard cl e10 (Style.allowShort ||| Style.shortAllowAdjacent) "program" ==
  styleMsg "slashes" "allow_slash_for_short" "allow_dash_for_short' (dashes)" "short"
#guard cl e10 (Style.allowShort ||| Style.allowDashForShort) "program" ==
  styleMsg "whitespace separated arguments" "short_allow_next" "short_allow_adjacent' ('=' separated arguments)" "short"
#guard cl e10 Style.allowLong "program" ==
  styleMsg "whitespace separated arguments" "long_allow_next" "long_allow_adjacent' ('=' separated arguments)" "long"
def noGuess : Cmdline :=
  { style := Style.defaultStyle &&& (0xFFFF ^^^ Style.allowGuessing)
    desc := [od "foo" (sem { vint with required := true })]
    positional := some { names := [L "foo"] } }
#guard msg (both (noGuess.parse [[]])) ==
  "the argument for option '--foo' is invalid"

-- parsers_test.cpp: test_unregistered
#guard (match ({ desc := [], allowUnregistered := true } : Cmdline).parse (words "--foo=12 --bar 1") with
  | .error _ => False
  | .ok p => p.options.map (fun o => (o.stringKey, o.unregistered, o.value)) =
        [(L "foo", true, [L "12"]), (L "bar", true, []), ([], false, [L "1"])] ∧
      collectUnrecognized .includePositional p.options = words "--foo=12 --bar 1" ∧
      (store p {}).1.map = [] ∧ (store p {}).2.isNone)
#guard shown (parseConfigFile (L "gv1 = 0\n[m1]\nv1 = 1\n") [] true) == ["gv1:0", "m1.v1:1"]

-- required_test.cpp
def rq := [od "cfgfile,c" (sem vreq), od "fritz,f" (sem vreq)]
#guard msg (runStore rq "prg -f file.txt").1.notify.2 == "the option '--cfgfile' is required but missing"
#guard (runStore rq "prg -c config.txt" (runStore rq "prg -f file.txt").1).1.notify.2.isNone
#guard (match parseConfigFile (L "cfgfile = file.cfg") rq with
  | .ok p => (store p (runStore rq "prg -f file.txt").1).1.notify.2.isNone | _ => false)
#guard (runStore [od "foo,bar" (sem vreq)] "prg --bar file.txt").1.notify.2.isNone

end PO.Test
