import Verif.Tests.Util
import Verif.Model.Format
import Verif.Model.Convert
/- /repo/test/options_description_test.cpp (formatting part) and some of unicode_test.cpp. -/
namespace PO.Test
open PO

def unt2 : ValueSemantic := untypedValue env false
def printed (caption : String) (ds : List OptionDesc) (ll : Nat := 80) (md : Nat := 40) : String :=
  match OptionsDesc.make (L caption) ll md with
  | .error _ => "<ctor>"
  | .ok o => match (ds.foldl OptionsDesc.addOption o).print with
    | .ok t => String.ofList t
    | .error _ => "<error>"

#guard printed "" [
  od "test" unt2 ("foo foo foo foo foo foo foo foo foo foo foo foo foo foo" ++
        "foo foo foo foo foo foo foo foo foo foo foo foo foo foo" ++
        "foo foo foo foo foo foo foo foo foo foo foo foo foo foo" ++
        "foo foo foo foo foo foo foo foo foo foo foo foo foo foo"),
  od "list" unt2 ("a list:\n      \t" ++
             "item1, item2, item3, item4, item5, item6, item7, item8, item9, " ++
             "item10, item11, item12, item13, item14, item15, item16, item17, item18"),
  od "well_formated" unt2
                        ("As you can see this is a very well formatted option description.\n" ++
                        "You can do this for example:\n\n" ++
                        "Values:\n" ++
                        "  Value1: \tdoes this and that, bla bla bla bla bla bla bla bla bla bla bla bla bla bla bla\n" ++
                        "  Value2: \tdoes something else, bla bla bla bla bla bla bla bla bla bla bla bla bla bla bla\n\n" ++
                        "    This paragraph has a first line indent only, bla bla bla bla bla bla bla bla bla bla bla bla bla bla bla")] ==
"  --test arg            foo foo foo foo foo foo foo foo foo foo foo foo foo \n" ++
"                        foofoo foo foo foo foo foo foo foo foo foo foo foo foo \n" ++
"                        foofoo foo foo foo foo foo foo foo foo foo foo foo foo \n" ++
"                        foofoo foo foo foo foo foo foo foo foo foo foo foo foo \n" ++
"                        foo\n" ++
"  --list arg            a list:\n" ++
"                              item1, item2, item3, item4, item5, item6, item7, \n" ++
"                              item8, item9, item10, item11, item12, item13, \n" ++
"                              item14, item15, item16, item17, item18\n" ++
"  --well_formated arg   As you can see this is a very well formatted option \n" ++
"                        description.\n" ++
"                        You can do this for example:\n" ++
"                        \n" ++
"                        Values:\n" ++
"                          Value1: does this and that, bla bla bla bla bla bla \n" ++
"                                  bla bla bla bla bla bla bla bla bla\n" ++
"                          Value2: does something else, bla bla bla bla bla bla \n" ++
"                                  bla bla bla bla bla bla bla bla bla\n" ++
"                        \n" ++
"                            This paragraph has a first line indent only, bla \n" ++
"                        bla bla bla bla bla bla bla bla bla bla bla bla bla bla\n"

#guard printed "" [od "foo,bar" unt2 "a multiple-name option"] ==
"  --foo arg             a multiple-name option\n"

#guard printed "" [
  od "an-option-that-sets-the-max" unt2 "this description sits on the same line, but wrapping should still work correctly",
  od "a-long-option-that-would-leave-very-little-space-for-description" unt2
    ("the description of the long opt, but placed on the next line\n" ++
     "    \talso ensure that the tabulation works correctly when a" ++
     " description size has been set")] ==
        "  --an-option-that-sets-the-max arg     this description sits on the same line,\n" ++
        "                                        but wrapping should still work \n" ++
        "                                        correctly\n" ++
        "  --a-long-option-that-would-leave-very-little-space-for-description arg\n" ++
        "                                        the description of the long opt, but \n" ++
        "                                        placed on the next line\n" ++
        "                                            also ensure that the tabulation \n" ++
        "                                            works correctly when a description \n" ++
        "                                            size has been set\n"

#guard printed "" [od "an-option-that-encroaches-description" unt2
    "this description should always be placed on the next line, and wrapping should continue as normal"] 80 70 ==
        "  --an-option-that-encroaches-description arg\n" ++
        "          this description should always be placed on the next line, and \n" ++
        "          wrapping should continue as normal\n"

def dstr (s : String) : TypedValue := { vstr with dflt := some (.scalar (.str (L s)), L s) }
#guard printed "" [od "cfgfile,c" (sem (dstr "/usr/local/etc/myprogramXXXXXXXXX/configuration.conf")) "the configfile"] ==
"  -c [ --cfgfile ] arg (=/usr/local/etc/myprogramXXXXXXXXX/configuration.conf)\n" ++
"                                        the configfile\n"

#guard printed "Supported options" [
  od "help" unt "this is a sufficiently long text to require word-wrapping",
  od "prefix" (sem (dstr "/h/proj/tmp/dispatch")) "root path of the dispatch installation",
  od "opt1" unt "this_is_a_sufficiently_long_text_to_require_word-wrapping_but_cannot_be_wrapped",
  od "opt2" unt "this_is_a_sufficiently long_text_to_require_word-wrapping",
  od "opt3" unt "this_is_a sufficiently_long_text_to_require_word-wrapping_but_will_not_be_wrapped"] ==
"Supported options:\n" ++
"  --help                               this is a sufficiently long text to \n" ++
"                                       require word-wrapping\n" ++
"  --prefix arg (=/h/proj/tmp/dispatch) root path of the dispatch installation\n" ++
"  --opt1                               this_is_a_sufficiently_long_text_to_requ\n" ++
"                                       ire_word-wrapping_but_cannot_be_wrapped\n" ++
"  --opt2                               this_is_a_sufficiently \n" ++
"                                       long_text_to_require_word-wrapping\n" ++
"  --opt3                               this_is_a sufficiently_long_text_to_requ\n" ++
"                                       ire_word-wrapping_but_will_not_be_wrappe\n" ++
"                                       d\n"

#guard printed "Supported options" [od "maxlength" (sem { type := .scalar (.lex 1), dflt := some (.scalar (.lex 1 0), L "0.1") })
    "Maximum edge length to keep."] ==
"Supported options:\n" ++
"  --maxlength arg (=0.1) Maximum edge length to keep.\n"

#guard printed "Supported options" [od "include" (sem { vstr with valueName := L "directory" })
    "Search for headers in 'directory'."] ==
"Supported options:\n" ++
"  --include directory   Search for headers in 'directory'.\n"

-- unicode: the word used in unicode_test.cpp, U+044F etc.
#guard (match toUtf8 [0x44F, 0x20, 0x4FE] with | .ok b => b == [0xD1, 0x8F, 0x20, 0xD3, 0xBE] | .error _ => false)
#guard (match fromUtf8 [0xD1, 0x8F, 0x20, 0xD3, 0xBE] with | .ok b => b == [0x44F, 0x20, 0x4FE] | .error _ => false)

end PO.Test
