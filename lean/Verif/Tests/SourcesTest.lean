import Verif.Tests.Util
import Verif.Model.Split
/- /repo/test/parsers_test.cpp, positional_options_test.cpp, unrecognized_test.cpp, split_test.cpp,
winmain.cpp, options_description_test.cpp (lookup part), transcribed. -/
namespace PO.Test
open PO

def unt1 : ValueSemantic := untypedValue env false
def shown (r : Except Fail Parsed) : List String :=
  match r with
  | .ok p => p.options.map fun o => String.ofList o.stringKey ++ ":" ++ "-".intercalate (o.value.map String.ofList)
  | .error _ => ["<error>"]

-- parsers_test.cpp: command line
def manyDesc := [od "foo,f" unt1, od "bar,b" (sem vstr), od "car,voiture" unt1, od "dog,dawg" unt1,
  od "baz" unt1, od "plug*" unt1]
def manyArgs := words "--foo=12 -f4 --bar=11 -b4 --voiture=15 --dawg=16 --dog=17 --plug3=10"
#guard shown (({ desc := manyDesc } : Cmdline).parse manyArgs) ==
  ["foo:12", "foo:4", "bar:11", "bar:4", "car:15", "dog:16", "dog:17", "plug3:10"]
#guard shown (parseCommandLine manyArgs manyDesc 0 (some fun _ => ([], []))) ==
  ["foo:4", "bar:11", "bar:4", "car:15", "dog:16", "dog:17", "plug3:10"]
#guard (match parseCommandLine [[], L "--open", []] [od "open" (sem vstr)] with
  | .ok p => (store p {}).2.isNone | .error _ => false)
def vstrm : TypedValue := { vstr with multitoken := true }
#guard shown (parseCommandLine ([] :: words "-p7 -o 1 2 3 -x8")
  [od ",p" (sem vstr), od ",o" (sem vstrm), od ",x" (sem vstr)]) == ["-p:7", "-o:1-2-3", "-x:8"]
def mmDesc := [od "bar,b" (sem vstr), od "foo,fee,f" (sem vstrm), od "fizbaz,baz,z" (sem vstr)]
#guard shown (parseCommandLine (words "program -fone -b two --foo three four -zfive --fee six") mmDesc) ==
  ["foo:one", "bar:two", "foo:three-four", "fizbaz:five", "foo:six"]
#guard shown (parseCommandLine (words "program -fone -b two --fee three four -zfive --foo six") mmDesc) ==
  ["foo:one", "bar:two", "foo:three-four", "fizbaz:five", "foo:six"]
def p1 : Positional := { names := [L "file"] }
#guard shown (({ desc := [od "multitoken,multi-token,m" (sem { vvec with multitoken := true }),
    od "file" (sem vstr)], positional := some p1 } : Cmdline).parse (words "-m token1 token2 -- some_file")) ==
  ["multitoken:token1-token2", "file:some_file"]

-- parsers_test.cpp: config file
def cfgDesc := [od "gv1" unt1, od "gv2" unt1, od "empty_value" unt1, od "plug*" unt1, od "m1.v1" unt1,
  od "m1.v2" unt1, od "m1.v3,alias3" unt1, od "b" (sem boolSwitch)]
#guard shown (parseConfigFile
  (L " gv1 = 0#asd\nempty_value = \nplug3 = 7\nb = true\n[m1]\nv1 = 1\n\nv2 = 2\nv3 = 3\n") cfgDesc) ==
  ["gv1:0", "empty_value:", "plug3:7", "b:true", "m1.v1:1", "m1.v2:2", "m1.v3:3"]
#guard shown (parseConfigFile
  (L "gv1 = 0#asd\nempty_value = \nplug3 = 7\nb = true\n\n[m1]\nv1 = 1\nv2 = 2\nv3 = 3") cfgDesc) ==
  ["gv1:0", "empty_value:", "plug3:7", "b:true", "m1.v1:1", "m1.v2:2", "m1.v3:3"]

-- parsers_test.cpp: environment
#guard shown (parseEnvironmentPrefix [L "HOME=/root", L "PO_TEST_FOO=1", L "EMPTY="]
  [od "foo" unt1, od "bar" unt1] (L "PO_TEST_")) == ["foo:1"]

-- positional_options_test.cpp
def pos123 : Except Fail Positional :=
  match Positional.add {} (L "first") 1 with
  | .error f => .error f
  | .ok p => match p.add (L "second") 2 with
    | .error f => .error f
    | .ok p => p.add (L "third") (-1)
#guard (match Positional.add {} (L "first") 1 with
  | .ok p => p.maxTotalCount = some 1 ∧ (p.nameForPosition 0).toOption = some (L "first") | _ => False)
#guard (match pos123 with
  | .ok p => p.maxTotalCount = none ∧ [0, 1, 2, 3, 10000].map (fun i => (p.nameForPosition i).toOption) =
      [some (L "first"), some (L "second"), some (L "second"), some (L "third"), some (L "third")]
  | _ => False)
def posDesc := [od "first" (sem vint), od "second" (sem vint), od "input-file" (sem vvec), od "some-other" (sem vstr)]
def posPos : Positional := { names := [L "input-file", L "input-file", L "some-other"] }
#guard shown (({ desc := posDesc, positional := some posPos } : Cmdline).parse
    (words "--first=10 file1 --second=10 file2 file3")) ==
  ["first:10", "input-file:file1", "second:10", "input-file:file2", "some-other:file3"]
#guard (match ({ desc := posDesc, positional := some posPos } : Cmdline).run
    (words "--first=10 file1 --second=10 file2 file3 file4") with
  | .error .tooManyPositional => true | _ => false)

-- unrecognized_test.cpp
#guard (match splitUnix (L "prg --input input.txt --optimization 4 --opt option") with
  | .error _ => False
  | .ok toks => match ({ desc := [], allowUnregistered := true } : Cmdline).run toks with
    | .error _ => False
    | .ok os => collectUnrecognized .includePositional os =
        words "prg --input input.txt --optimization 4 --opt option")
#guard (match parseConfigFile (L " input = input.txt\n optimization = 4\n opt = option\n") [] true with
  | .error _ => False
  | .ok p => collectUnrecognized .includePositional p.options =
      words "input input.txt optimization 4 opt option")

-- split_test.cpp
def splitIs (r : Except Fail (List Str)) (e : List String) : Bool :=
  match r with | .ok ts => ts == e.map L | .error _ => false
def seven := ["prg", "--input", "input.txt", "--optimization", "4", "--opt", "option"]
#guard splitIs (splitUnix (L "prg --input input.txt \r --optimization 4  \t  --opt \n  option") (L " \t\n\r")) seven
#guard splitIs (splitUnix (L "prg --input=input.txt  --optimization=4 --opt=option") (L "= ")) seven
#guard splitIs (splitUnix (L "prg;--input input.txt;--optimization 4;--opt option") (L "; ")) seven
#guard splitIs (splitUnix (L "prg --input \"input.txt input.txt\" --optimization 4 --opt \"option1 option2\"") (L " "))
  ["prg", "--input", "input.txt input.txt", "--optimization", "4", "--opt", "option1 option2"]
#guard splitIs (splitUnix (L "prg --input \\\"input.txt\\\" --optimization 4 --opt \\\"option1\\ option2\\\"") (L " "))
  ["prg", "--input", "\"input.txt\"", "--optimization", "4", "--opt", "\"option1 option2\""]
#guard splitIs (splitUnix (L "prg --input 'input.txt input.txt' --optimization 4 --opt 'option1 option2'") (L " ") (L "'"))
  ["prg", "--input", "input.txt input.txt", "--optimization", "4", "--opt", "option1 option2"]
#guard splitIs (splitUnix (L "prg --input \t \'input file.txt\' \t   --optimization 4 --opt \\\"option1\\ option2\\\""))
  ["prg", "--input", "input file.txt", "--optimization", "4", "--opt", "\"option1 option2\""]

-- winmain.cpp
def winIs (s : String) (e : List String) : Bool := splitWinmain (L s) == e.map L
#guard winIs "1 " ["1"]
#guard winIs "1\"2\" " ["12"]
#guard winIs "1\"2  " ["12  "]
#guard winIs "1\"\\\"2\" " ["1\"2"]
#guard winIs "\"1\" \"2\" " ["1", "2"]
#guard winIs "1\\\" " ["1\""]
#guard winIs "1\\\\\" " ["1\\ "]
#guard winIs "1\\\\\\\" " ["1\\\""]
#guard winIs "1\\\\\\\\\" " ["1\\\\ "]
#guard winIs "1\" 1 " ["1 1 "]
#guard winIs "1\\\" 1 " ["1\"", "1"]
#guard winIs "1\\1 " ["1\\1"]
#guard winIs "1\\\\1 " ["1\\\\1"]

-- options_description_test.cpp: lookup
def findsName (ds : List OptionDesc) (n : String) (approx : Bool) (e : String) : Bool :=
  match findOrThrow ds (L n) approx false false with
  | .ok d => d.longName == L e | .error _ => false
def apxDesc := ["foo", "fee", "baz", "all-chroots", "all-sessions", "all"].map (od · unt1)
#guard findsName apxDesc "fo" true "foo"
#guard findsName apxDesc "all" true "all"
#guard findsName apxDesc "all-ch" true "all-chroots"
#guard findsName [od "help" unt, od "config" (sem vstr), od "config-value" (sem vstr)] "config" true "config"
#guard findsName [od "help" unt, od "config" (sem vstr), od "config-value" (sem vstr)] "config-value" true "config-value"
def lnDesc := ["foo", "fe,baz", "chroots,all-chroots", "sessions,all-sessions", "everything,all", "qux,fo,q"].map (od · unt1)
#guard findsName lnDesc "baz" false "fe"
#guard (lnDesc[5]?.map (·.longNames)) == some [L "qux", L "fo"]
#guard (lnDesc[5]?.map (·.shortName)) == some (L "-q")

end PO.Test
