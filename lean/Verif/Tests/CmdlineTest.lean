import Verif.Tests.Util
/- /repo/test/cmdline_test.cpp, transcribed. -/
namespace PO.Test
open PO Style

-- test_long_options
def sl1 := allowLong ||| longAllowAdjacent
#guard okEq (runCase "foo bar=" sl1 "--foo foo -123 /asd") "foo: foo -123 /asd"
#guard failEq (runCase "foo bar=" sl1 "--unk") .unknown
#guard failEq (runCase "foo bar=" sl1 "--fo") .unknown
#guard failEq (runCase "foo bar=" sl1 "--foo=13") (.stx .extraParameter)
#guard failEq (runCase "foo bar=" sl1 "--bar=") (.stx .emptyAdjacentParameter)
#guard failEq (runCase "foo bar=" sl1 "--bar") (.stx .missingParameter)
#guard okEq (runCase "foo bar=" sl1 "--bar=123") "bar:123"
def sl2 := allowLong ||| longAllowNext
#guard okEq (runCase "foo bar=" sl2 "--bar 10") "bar:10"
#guard failEq (runCase "foo bar=" sl2 "--bar") (.stx .missingParameter)
#guard okEq (runCase "foo bar=" sl2 "--bar --foo") "bar:--foo"
def sl3 := allowLong ||| longAllowAdjacent ||| longAllowNext
#guard okEq (runCase "foo bar=" sl3 "--bar=10") "bar:10"
#guard okEq (runCase "foo bar=" sl3 "--bar 11") "bar:11"
def sl4 := allowLong ||| longAllowAdjacent ||| longAllowNext ||| caseInsensitive
#guard okEq (runCase "foo bar= baz? Giz" sl4 "--foo") "foo:"
#guard okEq (runCase "foo bar= baz? Giz" sl4 "--Foo") "foo:"
#guard okEq (runCase "foo bar= baz? Giz" sl4 "--bar=Ab") "bar:Ab"
#guard okEq (runCase "foo bar= baz? Giz" sl4 "--Bar=ab") "bar:ab"
#guard okEq (runCase "foo bar= baz? Giz" sl4 "--giz") "Giz:"

-- test_short_options
def ss1 := allowShort ||| allowDashForShort ||| shortAllowAdjacent
#guard okEq (runCase ",d ,f= ,g" ss1 "-d d /bar") "-d: d /bar"
#guard okEq (runCase ",d ,f= ,g" ss1 "--foo") "--foo"
#guard failEq (runCase ",d ,f= ,g" ss1 "-d13") (.stx .extraParameter)
#guard okEq (runCase ",d ,f= ,g" ss1 "-f14") "-f:14"
#guard okEq (runCase ",d ,f= ,g" ss1 "-g -f1") "-g: -f:1"
#guard failEq (runCase ",d ,f= ,g" ss1 "-f") (.stx .missingParameter)
def ss2 := allowShort ||| allowDashForShort ||| shortAllowNext
#guard okEq (runCase ",d ,f=" ss2 "-f 13") "-f:13"
#guard okEq (runCase ",d ,f=" ss2 "-f -13") "-f:-13"
#guard failEq (runCase ",d ,f=" ss2 "-f") (.stx .missingParameter)
#guard okEq (runCase ",d ,f=" ss2 "-f /foo") "-f:/foo"
#guard failEq (runCase ",d ,f=" ss2 "-f -d") (.stx .missingParameter)
def ss3 := ss2 ||| shortAllowAdjacent
#guard okEq (runCase ",d ,f=" ss3 "-f10") "-f:10"
#guard okEq (runCase ",d ,f=" ss3 "-f 10") "-f:10"
#guard failEq (runCase ",d ,f=" ss3 "-f -d") (.stx .missingParameter)
def ss4 := ss3 ||| allowSticky
#guard okEq (runCase ",d ,f= ,e" ss4 "-de") "-d: -e:"
#guard okEq (runCase ",d ,f= ,e" ss4 "-df10") "-d: -f:10"
#guard okEq (runCase ",d ,f= ,e" ss4 "-f12") "-f:12"
#guard okEq (runCase ",d ,f= ,e" ss4 "-fe") "-f:e"

-- test_dos_options
def sd1 := allowShort ||| allowSlashForShort ||| shortAllowAdjacent
#guard okEq (runCase ",d ,f=" sd1 "/d d -bar") "-d: d -bar"
#guard okEq (runCase ",d ,f=" sd1 "--foo") "--foo"
#guard failEq (runCase ",d ,f=" sd1 "/d13") (.stx .extraParameter)
#guard okEq (runCase ",d ,f=" sd1 "/f14") "-f:14"
#guard failEq (runCase ",d ,f=" sd1 "/f") (.stx .missingParameter)
def sd2 := sd1 ||| shortAllowNext ||| allowSticky
#guard failEq (runCase ",d ,f= ,e" sd2 "/de") (.stx .extraParameter)
#guard okEq (runCase ",d ,f= ,e" sd2 "/fe") "-f:e"

-- test_disguised_long
def sg1 := allowShort ||| shortAllowAdjacent ||| allowDashForShort ||| shortAllowNext |||
  allowLongDisguise ||| longAllowAdjacent
#guard okEq (runCase "foo,f goo,g= bee,b?" sg1 "-foo -f") "foo: foo:"
#guard okEq (runCase "foo,f goo,g= bee,b?" sg1 "-goo=x -gy") "goo:x goo:y"
#guard okEq (runCase "foo,f goo,g= bee,b?" sg1 "-bee=x -by") "bee:x bee:y"
def sg2 := sg1 ||| allowSlashForShort
#guard okEq (runCase "foo,f goo,g= bee,b?" sg2 "/foo -f") "foo: foo:"
#guard okEq (runCase "foo,f goo,g= bee,b?" sg2 "/goo=x") "goo:x"

-- test_guessing
def sgu := allowShort ||| shortAllowAdjacent ||| allowDashForShort ||| allowLong |||
  longAllowAdjacent ||| allowGuessing ||| allowLongDisguise
#guard okEq (runCase "opt123 opt56 foo,f=" sgu "--opt1") "opt123:"
#guard failEq (runCase "opt123 opt56 foo,f=" sgu "--opt") .ambiguous
#guard okEq (runCase "opt123 opt56 foo,f=" sgu "--f=1") "foo:1"
#guard okEq (runCase "opt123 opt56 foo,f=" sgu "-far") "foo:ar"
#guard okEq (runCase "fname fname2" sgu "--fname file --fname2 file2") "fname: file fname2: file2"
#guard failEq (runCase "fname fname2" sgu "--fnam file --fnam file2") .ambiguous
#guard failEq (runCase "fname fname2" sgu "--fnam file --fname2 file2") .ambiguous
#guard failEq (runCase "fname fname2" sgu "--fname2 file2 --fnam file") .ambiguous

-- test_arguments
def sa1 := allowShort ||| allowLong ||| allowDashForShort ||| shortAllowAdjacent ||| longAllowAdjacent
#guard okEq (runCase ",f ,g= ,e" sa1 "-f file -gx file2") "-f: file -g:x file2"
#guard okEq (runCase ",f ,g= ,e" sa1 "-f - -gx - -- -e") "-f: - -g:x - -e"
def sa2 := allowShort ||| shortAllowAdjacent ||| allowDashForShort
#guard okEq (runCase ",f ,g= ,e" sa2 "-f - -gx - -- -e") "-f: - -g:x - -e"

-- test_prefix
#guard okEq (runCase "foo*=" sa1 "--foo.bar=12") "foo.bar:12"

-- test_additional_parser
def atParser (s : Str) : Str × Str :=
  match s with | '@' :: r => (L "response-file", r) | _ => ([], [])
def atParserBroken (s : Str) : Str × Str :=
  match s with | '@' :: r => (L "some garbage", r) | _ => ([], [])
def addDesc := [od "response-file" (sem vstr), od "foo" (sem vint), od "bar,baz" (sem vint)]
#guard (match ({ desc := addDesc, additional := some atParser } : Cmdline).run
    [L "@config", L "--foo=1", L "--baz=11"] with
  | .ok os => os.map showOpt == ["response-file:config", "foo:1", "bar:11"]
  | .error _ => false)
#guard (match ({ desc := addDesc, additional := some atParserBroken } : Cmdline).run
    [L "@config", L "--foo=1", L "--baz=11"] with
  | .ok _ => false
  | .error f => statusOf f = .unknown)

-- test_style_parser
def atStyle : StyleParser := fun args =>
  match args with
  | ('@' :: _) :: rest =>
    .ok ([{ stringKey := L "foo", value := [L "1"] }, { stringKey := L "bar", value := [L "1"] }], rest)
  | a => .ok ([], a)
#guard (match ({ desc := [od "foo" (sem vint), od "bar" (sem vint)], styleParser := some atStyle } : Cmdline).run
    [L "@config"] with
  | .ok os => os.map showOpt == ["foo:1", "bar:1"]
  | .error _ => false)

-- test_unregistered
#guard (match ({ desc := [], allowUnregistered := true } : Cmdline).run
    (words "--foo=1 --bar 1 -b -biz") with
  | .ok os => os.map (fun o => (showOpt o, o.unregistered, o.positionKey)) ==
      [("foo:1", true, -1), ("bar:", true, -1), ("1", false, 0), ("-b:", true, -1), ("-b:iz", true, -1)]
  | .error _ => false)
#guard (match ({ desc := [od "help,h" unt, od "magic,m" (sem vstr)], allowUnregistered := true } : Cmdline).run
    (words "-hc -mc") with
  | .ok os => os.map (fun o => (showOpt o, o.unregistered)) ==
      [("help:", false), ("-c:", true), ("magic:c", false)]
  | .error _ => false)

-- test_implicit_value
#guard okEq (runCase "foo? bar?" sl1 "--foo bar") "foo:bar"
#guard okEq (runCase "foo? bar?" sl1 "--foo --bar") "foo: bar:"
#guard failEq (runCase "foo? bar?" sl1 "--foo --biz") .unknown

end PO.Test
