import Verif.Tests.StoreTest
import Verif.Model.Convert
/- /repo/test/unicode_test.cpp and test_convert.cpp (with the files utf8.txt and ucs2.txt), transcribed. -/
namespace PO.Test
open PO

/-- The local character set is UTF-8 too, as in the tests. -/
def uenv : Env :=
  let e := env.withUtf8
  { e with fromLocal := e.fromUtf8, toLocal := e.toUtf8 }

def vwstr : TypedValue := { type := .scalar .wstr, wide := true }
def wtok (s : String) (more : List Nat := []) : WStr := widen (L s) ++ more
/-- the letter U+044F, and its octets -/
def ya : List Nat := [0x44f]
def yaOctets : Str := octetsToStr [0xd1, 0x8f]

def wfoo : List OptionDesc := [od "foo" (vwstr.toSemantic uenv)]
def nfoo : List OptionDesc := [od "foo" (vstr.toSemantic uenv)]
def wrunStore (ds : List OptionDesc) (args : List WStr) : Option (List (String × Any)) :=
  match ({ desc := ds } : Cmdline).wparse uenv args with
  | .error _ => none
  | .ok p => some (entries (store p.utf8 {} true).1)

-- test_unicode_to_unicode
#guard decide (wrunStore wfoo [wtok "--foo=" ya] = some [("foo", some (.scalar (.wstr ya)))])
#guard decide ((({ desc := wfoo } : Cmdline).wparse uenv [wtok "--foo=" ya]).toOption.map (fun p => p.options.map (·.originalTokens)) =
  some [[wtok "--foo=" ya]])
-- test_unicode_to_native
#guard decide (wrunStore nfoo [wtok "--foo=" ya] = some [("foo", some (.scalar (.str yaOctets)))])
-- test_native_to_unicode
#guard decide (((({ desc := wfoo } : Cmdline).parse [L "--foo=" ++ yaOctets]).toOption.map fun p => entries (store p {}).1) =
  some [("foo", some (.scalar (.wstr ya)))])
-- test_command_line: `\u0FF52` is the character U+0FF5 and a `2`
def unt1u : ValueSemantic := untypedValue uenv false
def wdesc := [od "foo,f" unt1u, od "bar,b" (vstr.toSemantic uenv), od "baz" unt1u, od "qux,plug*" unt1u]
#guard decide ((({ desc := wdesc } : Cmdline).wparse uenv
    [wtok "--foo=1" [0xff5, 50], wtok "-f4", wtok "--bar=11", wtok "-b4", wtok "--plug3=10"]).toOption.map
      (fun p => p.options.map fun o => (String.ofList o.stringKey, o.value)) =
  some [("foo", [wtok "1" [0xff5, 50]]), ("foo", [wtok "4"]), ("bar", [wtok "11"]), ("bar", [wtok "4"]), ("qux", [wtok "10"])])
-- test_config_file
#guard decide (((wparseConfigFile uenv (wtok "foo = " ya) nfoo).toOption.map fun p => entries (store p.utf8 {} true).1) =
  some [("foo", some (.scalar (.str yaOctets)))])

-- test_convert.cpp: the octets of utf8.txt, the characters of ucs2.txt
def utf8Txt : List Nat := [
  0, 1, 2, 3, 4, 5, 6, 7, 8, 9, 10, 11, 12, 10, 14, 15, 16, 17, 18, 19, 20, 21, 22, 23, 24, 25, 26, 27, 28, 29, 30, 31,
  32, 33, 34, 35, 36, 37, 38, 39, 40, 41, 42, 43, 44, 45, 46, 47, 48, 49, 50, 51, 52, 53, 54, 55, 56, 57, 58, 59, 60, 61, 62, 63,
  64, 65, 66, 67, 68, 69, 70, 71, 72, 73, 74, 75, 76, 77, 78, 79, 80, 81, 82, 83, 84, 85, 86, 87, 88, 89, 90, 91, 92, 93, 94, 95,
  96, 97, 98, 99, 100, 101, 102, 103, 104, 105, 106, 107, 108, 109, 110, 111, 112, 113, 114, 115, 116, 117, 118, 119, 120, 121, 122, 123, 124, 125, 126, 127,
  194, 128, 194, 129, 194, 130, 194, 131, 194, 132, 194, 133, 194, 134, 194, 135, 194, 136, 194, 137, 194, 138, 194, 139, 194, 140, 194, 141, 194, 142, 194, 143,
  194, 144, 194, 145, 194, 146, 194, 147, 194, 148, 194, 149, 194, 150, 194, 151, 194, 152, 194, 153, 194, 154, 194, 155, 194, 156, 194, 157, 194, 158, 194, 159,
  194, 160, 194, 161, 194, 162, 194, 163, 194, 164, 194, 165, 194, 166, 194, 167, 194, 168, 194, 169, 194, 170, 194, 171, 194, 172, 194, 173, 194, 174, 194, 175,
  194, 176, 194, 177, 194, 178, 194, 179, 194, 180, 194, 181, 194, 182, 194, 183, 194, 184, 194, 185, 194, 186, 194, 187, 194, 188, 194, 189, 194, 190, 194, 191,
  195, 128, 195, 129, 195, 130, 195, 131, 195, 132, 195, 133, 195, 134, 195, 135, 195, 136, 195, 137, 195, 138, 195, 139, 195, 140, 195, 141, 195, 142, 195, 143,
  195, 144, 195, 145, 195, 146, 195, 147, 195, 148, 195, 149, 195, 150, 195, 151, 195, 152, 195, 153, 195, 154, 195, 155, 195, 156, 195, 157, 195, 158, 195, 159,
  195, 160, 195, 161, 195, 162, 195, 163, 195, 164, 195, 165, 195, 166, 195, 167, 195, 168, 195, 169, 195, 170, 195, 171, 195, 172, 195, 173, 195, 174, 195, 175,
  195, 176, 195, 177, 195, 178, 195, 179, 195, 180, 195, 181, 195, 182, 195, 183, 195, 184, 195, 185, 195, 186, 195, 187, 195, 188, 195, 189, 195, 190, 195, 191,
  196, 128, 196, 129, 196, 130, 196, 131, 196, 132, 196, 133, 196, 134, 196, 135, 196, 136, 196, 137, 196, 138, 196, 139, 196, 140, 196, 141, 196, 142, 196, 143,
  196, 144, 196, 145, 196, 146, 196, 147, 196, 148, 196, 149, 196, 150, 196, 151, 196, 152, 196, 153, 196, 154, 196, 155, 196, 156, 196, 157, 196, 158, 196, 159,
  196, 160, 196, 161, 196, 162, 196, 163, 196, 164, 196, 165, 196, 166, 196, 167, 196, 168, 196, 169, 196, 170, 196, 171, 196, 172, 196, 173, 196, 174, 196, 175,
  196, 176, 196, 177, 196, 178, 196, 179, 196, 180, 196, 181, 196, 182, 196, 183, 196, 184, 196, 185, 196, 186, 196, 187, 196, 188, 196, 189, 196, 190, 196, 191,
  197, 128, 197, 129, 197, 130, 197, 131, 197, 132, 197, 133, 197, 134, 197, 135, 197, 136, 197, 137, 197, 138, 197, 139, 197, 140, 197, 141, 197, 142, 197, 143,
  197, 144, 197, 145, 197, 146, 197, 147, 197, 148, 197, 149, 197, 150, 197, 151, 197, 152, 197, 153, 197, 154, 197, 155, 197, 156, 197, 157, 197, 158, 197, 159,
  197, 160, 197, 161, 197, 162, 197, 163, 197, 164, 197, 165, 197, 166, 197, 167, 197, 168, 197, 169, 197, 170, 197, 171, 197, 172, 197, 173, 197, 174, 197, 175,
  197, 176, 197, 177, 197, 178, 197, 179, 197, 180, 197, 181, 197, 182, 197, 183, 197, 184, 197, 185, 197, 186, 197, 187, 197, 188, 197, 189, 197, 190, 197, 191,
  198, 128, 198, 129, 198, 130, 198, 131, 198, 132, 198, 133, 198, 134, 198, 135, 198, 136, 198, 137, 198, 138, 198, 139, 198, 140, 198, 141, 198, 142, 198, 143,
  198, 144, 198, 145, 198, 146, 198, 147, 198, 148, 198, 149, 198, 150, 198, 151, 198, 152, 198, 153, 198, 154, 198, 155, 198, 156, 198, 157, 198, 158, 198, 159,
  198, 160, 198, 161, 198, 162, 198, 163, 198, 164, 198, 165, 198, 166, 198, 167, 198, 168, 198, 169, 198, 170, 198, 171, 198, 172, 198, 173, 198, 174, 198, 175,
  198, 176, 198, 177, 198, 178, 198, 179, 198, 180, 198, 181, 198, 182, 198, 183, 198, 184, 198, 185, 198, 186, 198, 187, 198, 188, 198, 189, 198, 190, 198, 191,
  199, 128, 199, 129, 199, 130, 199, 131, 199, 132, 199, 133, 199, 134, 199, 135, 199, 136, 199, 137, 199, 138, 199, 139, 199, 140, 199, 141, 199, 142, 199, 143,
  199, 144, 199, 145, 199, 146, 199, 147, 199, 148, 199, 149, 199, 150, 199, 151, 199, 152, 199, 153, 199, 154, 199, 155, 199, 156, 199, 157, 199, 158, 199, 159,
  199, 160, 199, 161, 199, 162, 199, 163, 199, 164, 199, 165, 199, 166, 199, 167, 199, 168, 199, 169, 199, 170, 199, 171, 199, 172, 199, 173, 199, 174, 199, 175,
  199, 176, 199, 177, 199, 178, 199, 179, 199, 180, 199, 181, 199, 182, 199, 183, 199, 184, 199, 185, 199, 186, 199, 187, 199, 188, 199, 189, 199, 190, 199, 191,
  200, 128, 200, 129, 200, 130, 200, 131, 200, 132, 200, 133, 200, 134, 200, 135, 200, 136, 200, 137, 200, 138, 200, 139, 200, 140, 200, 141, 200, 142, 200, 143,
  200, 144, 200, 145, 200, 146, 200, 147, 200, 148, 200, 149, 200, 150, 200, 151, 200, 152, 200, 153, 200, 154, 200, 155, 200, 156, 200, 157, 200, 158, 200, 159,
  200, 160, 200, 161, 200, 162, 200, 163, 200, 164, 200, 165, 200, 166, 200, 167, 200, 168, 200, 169, 200, 170, 200, 171, 200, 172, 200, 173, 200, 174, 200, 175,
  200, 176, 200, 177, 200, 178, 200, 179, 200, 180, 200, 181, 200, 182, 200, 183, 200, 184, 200, 185, 200, 186, 200, 187, 200, 188, 200, 189, 200, 190, 200, 191,
  201, 128, 201, 129, 201, 130, 201, 131, 201, 132, 201, 133, 201, 134, 201, 135, 201, 136, 201, 137, 201, 138, 201, 139, 201, 140, 201, 141, 201, 142, 201, 143,
  201, 144, 201, 145, 201, 146, 201, 147, 201, 148, 201, 149, 201, 150, 201, 151, 201, 152, 201, 153, 201, 154, 201, 155, 201, 156, 201, 157, 201, 158, 201, 159,
  201, 160, 201, 161, 201, 162, 201, 163, 201, 164, 201, 165, 201, 166, 201, 167, 201, 168, 201, 169, 201, 170, 201, 171, 201, 172, 201, 173, 201, 174, 201, 175,
  201, 176, 201, 177, 201, 178, 201, 179, 201, 180, 201, 181, 201, 182, 201, 183, 201, 184, 201, 185, 201, 186, 201, 187, 201, 188, 201, 189, 201, 190, 201, 191,
  202, 128, 202, 129, 202, 130, 202, 131, 202, 132, 202, 133, 202, 134, 202, 135, 202, 136, 202, 137, 202, 138, 202, 139, 202, 140, 202, 141, 202, 142, 202, 143,
  202, 144, 202, 145, 202, 146, 202, 147, 202, 148, 202, 149, 202, 150, 202, 151, 202, 152, 202, 153, 202, 154, 202, 155, 202, 156, 202, 157, 202, 158, 202, 159,
  202, 160, 202, 161, 202, 162, 202, 163, 202, 164, 202, 165, 202, 166, 202, 167, 202, 168, 202, 169, 202, 170, 202, 171, 202, 172, 202, 173, 202, 174, 202, 175,
  202, 176, 202, 177, 202, 178, 202, 179, 202, 180, 202, 181, 202, 182, 202, 183, 202, 184, 202, 185, 202, 186, 202, 187, 202, 188, 202, 189, 202, 190, 202, 191,
  203, 128, 203, 129, 203, 130, 203, 131, 203, 132, 203, 133, 203, 134, 203, 135, 203, 136, 203, 137, 203, 138, 203, 139, 203, 140, 203, 141, 203, 142, 203, 143,
  203, 144, 203, 145, 203, 146, 203, 147, 203, 148, 203, 149, 203, 150, 203, 151, 203, 152, 203, 153, 203, 154, 203, 155, 203, 156, 203, 157, 203, 158, 203, 159,
  203, 160, 203, 161, 203, 162, 203, 163, 203, 164, 203, 165, 203, 166, 203, 167, 203, 168, 203, 169, 203, 170, 203, 171, 203, 172, 203, 173, 203, 174, 203, 175,
  203, 176, 203, 177, 203, 178, 203, 179, 203, 180, 203, 181, 203, 182, 203, 183, 203, 184, 203, 185, 203, 186, 203, 187, 203, 188, 203, 189, 203, 190, 203, 191,
  204, 128, 204, 129, 204, 130, 204, 131, 204, 132, 204, 133, 204, 134, 204, 135, 204, 136, 204, 137, 204, 138, 204, 139, 204, 140, 204, 141, 204, 142, 204, 143,
  204, 144, 204, 145, 204, 146, 204, 147, 204, 148, 204, 149, 204, 150, 204, 151, 204, 152, 204, 153, 204, 154, 204, 155, 204, 156, 204, 157, 204, 158, 204, 159,
  204, 160, 204, 161, 204, 162, 204, 163, 204, 164, 204, 165, 204, 166, 204, 167, 204, 168, 204, 169, 204, 170, 204, 171, 204, 172, 204, 173, 204, 174, 204, 175,
  204, 176, 204, 177, 204, 178, 204, 179, 204, 180, 204, 181, 204, 182, 204, 183, 204, 184, 204, 185, 204, 186, 204, 187, 204, 188, 204, 189, 204, 190, 204, 191,
  205, 128, 205, 129, 205, 130, 205, 131, 205, 132, 205, 133, 205, 134, 205, 135, 205, 136, 205, 137, 205, 138, 205, 139, 205, 140, 205, 141, 205, 142, 205, 143,
  205, 144, 205, 145, 205, 146, 205, 147, 205, 148, 205, 149, 205, 150, 205, 151, 205, 152, 205, 153, 205, 154, 205, 155, 205, 156, 205, 157, 205, 158, 205, 159,
  205, 160, 205, 161, 205, 162, 205, 163, 205, 164, 205, 165, 205, 166, 205, 167, 205, 168, 205, 169, 205, 170, 205, 171, 205, 172, 205, 173, 205, 174, 205, 175,
  205, 176, 205, 177, 205, 178, 205, 179, 205, 180, 205, 181, 205, 182, 205, 183, 205, 184, 205, 185, 205, 186, 205, 187, 205, 188, 205, 189, 205, 190, 205, 191,
  206, 128, 206, 129, 206, 130, 206, 131, 206, 132, 206, 133, 206, 134, 206, 135, 206, 136, 206, 137, 206, 138, 206, 139, 206, 140, 206, 141, 206, 142, 206, 143,
  206, 144, 206, 145, 206, 146, 206, 147, 206, 148, 206, 149, 206, 150, 206, 151, 206, 152, 206, 153, 206, 154, 206, 155, 206, 156, 206, 157, 206, 158, 206, 159,
  206, 160, 206, 161, 206, 162, 206, 163, 206, 164, 206, 165, 206, 166, 206, 167, 206, 168, 206, 169, 206, 170, 206, 171, 206, 172, 206, 173, 206, 174, 206, 175,
  206, 176, 206, 177, 206, 178, 206, 179, 206, 180, 206, 181, 206, 182, 206, 183, 206, 184, 206, 185, 206, 186, 206, 187, 206, 188, 206, 189, 206, 190, 206, 191,
  207, 128, 207, 129, 207, 130, 207, 131, 207, 132, 207, 133, 207, 134, 207, 135, 207, 136, 207, 137, 207, 138, 207, 139, 207, 140, 207, 141, 207, 142, 207, 143,
  207, 144, 207, 145, 207, 146, 207, 147, 207, 148, 207, 149, 207, 150, 207, 151, 207, 152, 207, 153, 207, 154, 207, 155, 207, 156, 207, 157, 207, 158, 207, 159,
  207, 160, 207, 161, 207, 162, 207, 163, 207, 164, 207, 165, 207, 166, 207, 167, 207, 168, 207, 169, 207, 170, 207, 171, 207, 172, 207, 173, 207, 174, 207, 175,
  207, 176, 207, 177, 207, 178, 207, 179, 207, 180, 207, 181, 207, 182, 207, 183, 207, 184, 207, 185, 207, 186, 207, 187, 207, 188, 207, 189, 207, 190, 207, 191,
  208, 128, 208, 129, 208, 130, 208, 131, 208, 132, 208, 133, 208, 134, 208, 135, 208, 136, 208, 137, 208, 138, 208, 139, 208, 140, 208, 141, 208, 142, 208, 143,
  208, 144, 208, 145, 208, 146, 208, 147, 208, 148, 208, 149, 208, 150, 208, 151, 208, 152, 208, 153, 208, 154, 208, 155, 208, 156, 208, 157, 208, 158, 208, 159,
  208, 160, 208, 161, 208, 162, 208, 163, 208, 164, 208, 165, 208, 166, 208, 167, 208, 168, 208, 169, 208, 170, 208, 171, 208, 172, 208, 173, 208, 174, 208, 175,
  208, 176, 208, 177, 208, 178, 208, 179, 208, 180, 208, 181, 208, 182, 208, 183, 208, 184, 208, 185, 208, 186, 208, 187, 208, 188, 208, 189, 208, 190, 208, 191,
  209, 128, 209, 129, 209, 130, 209, 131, 209, 132, 209, 133, 209, 134, 209, 135, 209, 136, 209, 137, 209, 138, 209, 139, 209, 140, 209, 141, 209, 142, 209, 143,
  209, 144, 209, 145, 209, 146, 209, 147, 209, 148, 209, 149, 209, 150, 209, 151, 209, 152, 209, 153, 209, 154, 209, 155, 209, 156, 209, 157, 209, 158, 209, 159,
  209, 160, 209, 161, 209, 162, 209, 163, 209, 164, 209, 165, 209, 166, 209, 167, 209, 168, 209, 169, 209, 170, 209, 171, 209, 172, 209, 173, 209, 174, 209, 175,
  209, 176, 209, 177, 209, 178, 209, 179, 209, 180, 209, 181, 209, 182, 209, 183, 209, 184, 209, 185, 209, 186, 209, 187, 209, 188, 209, 189, 209, 190, 209, 191,
  210, 128, 210, 129, 210, 130, 210, 131, 210, 132, 210, 133, 210, 134, 210, 135, 210, 136, 210, 137, 210, 138, 210, 139, 210, 140, 210, 141, 210, 142, 210, 143,
  210, 144, 210, 145, 210, 146, 210, 147, 210, 148, 210, 149, 210, 150, 210, 151, 210, 152, 210, 153, 210, 154, 210, 155, 210, 156, 210, 157, 210, 158, 210, 159,
  210, 160, 210, 161, 210, 162, 210, 163, 210, 164, 210, 165, 210, 166, 210, 167, 210, 168, 210, 169, 210, 170, 210, 171, 210, 172, 210, 173, 210, 174, 210, 175,
  210, 176, 210, 177, 210, 178, 210, 179, 210, 180, 210, 181, 210, 182, 210, 183, 210, 184, 210, 185, 210, 186, 210, 187, 210, 188, 210, 189, 210, 190, 210, 191,
  211, 128, 211, 129, 211, 130, 211, 131, 211, 132, 211, 133, 211, 134, 211, 135, 211, 136, 211, 137, 211, 138, 211, 139, 211, 140, 211, 141, 211, 142, 211, 143,
  211, 144, 211, 145, 211, 146, 211, 147, 211, 148, 211, 149, 211, 150, 211, 151, 211, 152, 211, 153, 211, 154, 211, 155, 211, 156, 211, 157, 211, 158, 211, 159,
  211, 160, 211, 161, 211, 162, 211, 163, 211, 164, 211, 165, 211, 166, 211, 167, 211, 168, 211, 169, 211, 170, 211, 171, 211, 172, 211, 173, 211, 174, 211, 175,
  211, 176, 211, 177, 211, 178, 211, 179, 211, 180, 211, 181, 211, 182, 211, 183, 211, 184, 211, 185, 211, 186, 211, 187, 211, 188, 211, 189, 211, 190, 211, 191,
  212, 128, 212, 129, 212, 130, 212, 131, 212, 132, 212, 133, 212, 134, 212, 135, 212, 136, 212, 137, 212, 138, 212, 139, 212, 140, 212, 141, 212, 142, 212, 143,
  212, 144, 212, 145, 212, 146, 212, 147, 212, 148, 212, 149, 212, 150, 212, 151, 212, 152, 212, 153, 212, 154, 212, 155, 212, 156, 212, 157, 212, 158, 212, 159,
  212, 160, 212, 161, 212, 162, 212, 163, 212, 164, 212, 165, 212, 166, 212, 167, 212, 168, 212, 169, 212, 170, 212, 171, 212, 172, 212, 173, 212, 174, 212, 175,
  212, 176, 212, 177, 212, 178, 212, 179, 212, 180, 212, 181, 212, 182, 212, 183, 212, 184, 212, 185, 212, 186, 212, 187, 212, 188, 212, 189, 212, 190, 212, 191,
  213, 128, 213, 129, 213, 130, 213, 131, 213, 132, 213, 133, 213, 134, 213, 135, 213, 136, 213, 137, 213, 138, 213, 139, 213, 140, 213, 141, 213, 142, 213, 143,
  213, 144, 213, 145, 213, 146, 213, 147, 213, 148, 213, 149, 213, 150, 213, 151, 213, 152, 213, 153, 213, 154, 213, 155, 213, 156, 213, 157, 213, 158]
def ucs2Txt : List Nat := [
  0, 1, 2, 3, 4, 5, 6, 7, 8, 9, 10, 11, 12, 10, 14, 15, 16, 17, 18, 19, 20, 21, 22, 23, 24, 25, 26, 27, 28, 29, 30, 31,
  32, 33, 34, 35, 36, 37, 38, 39, 40, 41, 42, 43, 44, 45, 46, 47, 48, 49, 50, 51, 52, 53, 54, 55, 56, 57, 58, 59, 60, 61, 62, 63,
  64, 65, 66, 67, 68, 69, 70, 71, 72, 73, 74, 75, 76, 77, 78, 79, 80, 81, 82, 83, 84, 85, 86, 87, 88, 89, 90, 91, 92, 93, 94, 95,
  96, 97, 98, 99, 100, 101, 102, 103, 104, 105, 106, 107, 108, 109, 110, 111, 112, 113, 114, 115, 116, 117, 118, 119, 120, 121, 122, 123, 124, 125, 126, 127,
  128, 129, 130, 131, 132, 133, 134, 135, 136, 137, 138, 139, 140, 141, 142, 143, 144, 145, 146, 147, 148, 149, 150, 151, 152, 153, 154, 155, 156, 157, 158, 159,
  160, 161, 162, 163, 164, 165, 166, 167, 168, 169, 170, 171, 172, 173, 174, 175, 176, 177, 178, 179, 180, 181, 182, 183, 184, 185, 186, 187, 188, 189, 190, 191,
  192, 193, 194, 195, 196, 197, 198, 199, 200, 201, 202, 203, 204, 205, 206, 207, 208, 209, 210, 211, 212, 213, 214, 215, 216, 217, 218, 219, 220, 221, 222, 223,
  224, 225, 226, 227, 228, 229, 230, 231, 232, 233, 234, 235, 236, 237, 238, 239, 240, 241, 242, 243, 244, 245, 246, 247, 248, 249, 250, 251, 252, 253, 254, 255,
  256, 257, 258, 259, 260, 261, 262, 263, 264, 265, 266, 267, 268, 266, 270, 271, 272, 273, 274, 275, 276, 277, 278, 279, 280, 281, 282, 283, 284, 285, 286, 287,
  288, 289, 290, 291, 292, 293, 294, 295, 296, 297, 298, 299, 300, 301, 302, 303, 304, 305, 306, 307, 308, 309, 310, 311, 312, 313, 314, 315, 316, 317, 318, 319,
  320, 321, 322, 323, 324, 325, 326, 327, 328, 329, 330, 331, 332, 333, 334, 335, 336, 337, 338, 339, 340, 341, 342, 343, 344, 345, 346, 347, 348, 349, 350, 351,
  352, 353, 354, 355, 356, 357, 358, 359, 360, 361, 362, 363, 364, 365, 366, 367, 368, 369, 370, 371, 372, 373, 374, 375, 376, 377, 378, 379, 380, 381, 382, 383,
  384, 385, 386, 387, 388, 389, 390, 391, 392, 393, 394, 395, 396, 397, 398, 399, 400, 401, 402, 403, 404, 405, 406, 407, 408, 409, 410, 411, 412, 413, 414, 415,
  416, 417, 418, 419, 420, 421, 422, 423, 424, 425, 426, 427, 428, 429, 430, 431, 432, 433, 434, 435, 436, 437, 438, 439, 440, 441, 442, 443, 444, 445, 446, 447,
  448, 449, 450, 451, 452, 453, 454, 455, 456, 457, 458, 459, 460, 461, 462, 463, 464, 465, 466, 467, 468, 469, 470, 471, 472, 473, 474, 475, 476, 477, 478, 479,
  480, 481, 482, 483, 484, 485, 486, 487, 488, 489, 490, 491, 492, 493, 494, 495, 496, 497, 498, 499, 500, 501, 502, 503, 504, 505, 506, 507, 508, 509, 510, 511,
  512, 513, 514, 515, 516, 517, 518, 519, 520, 521, 522, 523, 524, 522, 526, 527, 528, 529, 530, 531, 532, 533, 534, 535, 536, 537, 538, 539, 540, 541, 542, 543,
  544, 545, 546, 547, 548, 549, 550, 551, 552, 553, 554, 555, 556, 557, 558, 559, 560, 561, 562, 563, 564, 565, 566, 567, 568, 569, 570, 571, 572, 573, 574, 575,
  576, 577, 578, 579, 580, 581, 582, 583, 584, 585, 586, 587, 588, 589, 590, 591, 592, 593, 594, 595, 596, 597, 598, 599, 600, 601, 602, 603, 604, 605, 606, 607,
  608, 609, 610, 611, 612, 613, 614, 615, 616, 617, 618, 619, 620, 621, 622, 623, 624, 625, 626, 627, 628, 629, 630, 631, 632, 633, 634, 635, 636, 637, 638, 639,
  640, 641, 642, 643, 644, 645, 646, 647, 648, 649, 650, 651, 652, 653, 654, 655, 656, 657, 658, 659, 660, 661, 662, 663, 664, 665, 666, 667, 668, 669, 670, 671,
  672, 673, 674, 675, 676, 677, 678, 679, 680, 681, 682, 683, 684, 685, 686, 687, 688, 689, 690, 691, 692, 693, 694, 695, 696, 697, 698, 699, 700, 701, 702, 703,
  704, 705, 706, 707, 708, 709, 710, 711, 712, 713, 714, 715, 716, 717, 718, 719, 720, 721, 722, 723, 724, 725, 726, 727, 728, 729, 730, 731, 732, 733, 734, 735,
  736, 737, 738, 739, 740, 741, 742, 743, 744, 745, 746, 747, 748, 749, 750, 751, 752, 753, 754, 755, 756, 757, 758, 759, 760, 761, 762, 763, 764, 765, 766, 767,
  768, 769, 770, 771, 772, 773, 774, 775, 776, 777, 778, 779, 780, 778, 782, 783, 784, 785, 786, 787, 788, 789, 790, 791, 792, 793, 794, 795, 796, 797, 798, 799,
  800, 801, 802, 803, 804, 805, 806, 807, 808, 809, 810, 811, 812, 813, 814, 815, 816, 817, 818, 819, 820, 821, 822, 823, 824, 825, 826, 827, 828, 829, 830, 831,
  832, 833, 834, 835, 836, 837, 838, 839, 840, 841, 842, 843, 844, 845, 846, 847, 848, 849, 850, 851, 852, 853, 854, 855, 856, 857, 858, 859, 860, 861, 862, 863,
  864, 865, 866, 867, 868, 869, 870, 871, 872, 873, 874, 875, 876, 877, 878, 879, 880, 881, 882, 883, 884, 885, 886, 887, 888, 889, 890, 891, 892, 893, 894, 895,
  896, 897, 898, 899, 900, 901, 902, 903, 904, 905, 906, 907, 908, 909, 910, 911, 912, 913, 914, 915, 916, 917, 918, 919, 920, 921, 922, 923, 924, 925, 926, 927,
  928, 929, 930, 931, 932, 933, 934, 935, 936, 937, 938, 939, 940, 941, 942, 943, 944, 945, 946, 947, 948, 949, 950, 951, 952, 953, 954, 955, 956, 957, 958, 959,
  960, 961, 962, 963, 964, 965, 966, 967, 968, 969, 970, 971, 972, 973, 974, 975, 976, 977, 978, 979, 980, 981, 982, 983, 984, 985, 986, 987, 988, 989, 990, 991,
  992, 993, 994, 995, 996, 997, 998, 999, 1000, 1001, 1002, 1003, 1004, 1005, 1006, 1007, 1008, 1009, 1010, 1011, 1012, 1013, 1014, 1015, 1016, 1017, 1018, 1019, 1020, 1021, 1022, 1023,
  1024, 1025, 1026, 1027, 1028, 1029, 1030, 1031, 1032, 1033, 1034, 1035, 1036, 1034, 1038, 1039, 1040, 1041, 1042, 1043, 1044, 1045, 1046, 1047, 1048, 1049, 1050, 1051, 1052, 1053, 1054, 1055,
  1056, 1057, 1058, 1059, 1060, 1061, 1062, 1063, 1064, 1065, 1066, 1067, 1068, 1069, 1070, 1071, 1072, 1073, 1074, 1075, 1076, 1077, 1078, 1079, 1080, 1081, 1082, 1083, 1084, 1085, 1086, 1087,
  1088, 1089, 1090, 1091, 1092, 1093, 1094, 1095, 1096, 1097, 1098, 1099, 1100, 1101, 1102, 1103, 1104, 1105, 1106, 1107, 1108, 1109, 1110, 1111, 1112, 1113, 1114, 1115, 1116, 1117, 1118, 1119,
  1120, 1121, 1122, 1123, 1124, 1125, 1126, 1127, 1128, 1129, 1130, 1131, 1132, 1133, 1134, 1135, 1136, 1137, 1138, 1139, 1140, 1141, 1142, 1143, 1144, 1145, 1146, 1147, 1148, 1149, 1150, 1151,
  1152, 1153, 1154, 1155, 1156, 1157, 1158, 1159, 1160, 1161, 1162, 1163, 1164, 1165, 1166, 1167, 1168, 1169, 1170, 1171, 1172, 1173, 1174, 1175, 1176, 1177, 1178, 1179, 1180, 1181, 1182, 1183,
  1184, 1185, 1186, 1187, 1188, 1189, 1190, 1191, 1192, 1193, 1194, 1195, 1196, 1197, 1198, 1199, 1200, 1201, 1202, 1203, 1204, 1205, 1206, 1207, 1208, 1209, 1210, 1211, 1212, 1213, 1214, 1215,
  1216, 1217, 1218, 1219, 1220, 1221, 1222, 1223, 1224, 1225, 1226, 1227, 1228, 1229, 1230, 1231, 1232, 1233, 1234, 1235, 1236, 1237, 1238, 1239, 1240, 1241, 1242, 1243, 1244, 1245, 1246, 1247,
  1248, 1249, 1250, 1251, 1252, 1253, 1254, 1255, 1256, 1257, 1258, 1259, 1260, 1261, 1262, 1263, 1264, 1265, 1266, 1267, 1268, 1269, 1270, 1271, 1272, 1273, 1274, 1275, 1276, 1277, 1278, 1279,
  1280, 1281, 1282, 1283, 1284, 1285, 1286, 1287, 1288, 1289, 1290, 1291, 1292, 1290, 1294, 1295, 1296, 1297, 1298, 1299, 1300, 1301, 1302, 1303, 1304, 1305, 1306, 1307, 1308, 1309, 1310, 1311,
  1312, 1313, 1314, 1315, 1316, 1317, 1318, 1319, 1320, 1321, 1322, 1323, 1324, 1325, 1326, 1327, 1328, 1329, 1330, 1331, 1332, 1333, 1334, 1335, 1336, 1337, 1338, 1339, 1340, 1341, 1342, 1343,
  1344, 1345, 1346, 1347, 1348, 1349, 1350, 1351, 1352, 1353, 1354, 1355, 1356, 1357, 1358, 1359, 1360, 1361, 1362, 1363, 1364, 1365, 1366, 1367, 1368, 1369, 1370, 1371, 1372, 1373, 1374]
/-- In ucs2.txt as it is in /repo every byte 13 has become a byte 10 (it was taken for text with line ends, and test_convert is
built but not run: test/Jamfile.v2:41). -/
def lineEnds (w : Nat) : Nat :=
  let b := fun x => if x = 13 then 10 else x
  b (w % 256) + 256 * b (w / 256)
-- utf8.txt has no such byte
#guard utf8Txt.all (· ≠ 13)
#guard decide ((fromUtf8 utf8Txt).toOption.map (·.map lineEnds) = some ucs2Txt)
#guard decide (((fromUtf8 utf8Txt).toOption.bind fun w => (toUtf8 w).toOption) = some utf8Txt)

end PO.Test
