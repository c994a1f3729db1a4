import Verif.Model.Parsers
/-
Reading from a stream: std::getline with the state bits of the stream, the iterators of eof_iterator.hpp,
detail/config_file.hpp and environment_iterator.hpp with their members, and the loops that drive them.
-/
namespace PO

/-- A `std::basic_istream<charT>` with no exceptions enabled: the characters that are still to come, whether after them reading
fails (`broken`: the stream buffer throws) or the end is reached, and the state bits. -/
structure IStream (α : Type) where
  rest : List α
  broken : Bool := false
  eof : Bool := false
  fail : Bool := false
  bad : Bool := false
  deriving DecidableEq, Repr

namespace IStream
variable {α : Type} [DecidableEq α]

/-- `is.good()`. -/
def good (s : IStream α) : Bool := !s.eof && !s.fail && !s.bad

/-- The stream converted to `bool`: `!is.fail()`, that is neither `failbit` nor `badbit`. -/
def ok (s : IStream α) : Bool := !s.fail && !s.bad

/-- The extraction loop of `std::getline`: the text, what remains, and whether the separator was found. -/
def extract (sep : α) : List α → List α → List α × List α × Bool
  | [], acc => (acc, [], false)
  | c :: cs, acc => if c = sep then (acc, cs, true) else extract sep cs (acc ++ [c])

/-- `std::getline(is, str)` [istream.unformatted, string.io]: nothing is read unless the stream is good; `eofbit` or `badbit` is
set if reading ends without the separator, and `failbit` if no character was extracted. -/
def getline (s : IStream α) (sep : α) : List α × IStream α :=
  if s.good then
    match extract sep s.rest [] with
    | (line, rest, true) => (line, { s with rest })
    | (line, rest, false) =>
      (line, { s with rest, eof := !s.broken, bad := s.broken, fail := s.rest.isEmpty })
  else ([], { s with fail := true })

theorem extract_length (sep : α) (cs acc : List α) : (extract sep cs acc).2.1.length ≤ cs.length ∧
    (cs ≠ [] → (extract sep cs acc).2.1.length < cs.length) := by
  induction cs generalizing acc with
  | nil => simp [extract]
  | cons c cs ih =>
    rw [extract]
    split
    · simp
    · have := (ih (acc ++ [c])).1
      simp only [List.length_cons]
      omega

/-- A line that was read is taken from the characters to come. -/
theorem getline_less (s : IStream α) (sep : α) (h : (s.getline sep).2.ok = true) : (s.getline sep).2.rest.length < s.rest.length := by
  unfold getline at h ⊢
  split at h
  · rename_i hg
    rw [if_pos hg]
    have hl := extract_length sep s.rest []
    have hr : s.rest ≠ [] := by
      intro h0
      rw [h0] at h
      simp [extract, ok] at h
    split
    · rename_i he; rw [he] at hl; exact hl.2 hr
    · rename_i he; rw [he] at hl; exact hl.2 hr
  · simp [ok] at h

end IStream

/-! ### basic_config_file_iterator -/

/-- `basic_config_file_iterator<charT>` without the pointer to the stream: `eof_iterator`'s `m_at_eof` and `m_value`
(eof_iterator.hpp:96-97), `m_prefix`, and what is fixed at construction (detail/config_file.hpp:108-117). -/
structure CfIter where
  it : ConfigIter
  pre : Str := []
  atEof : Bool := false
  value : Opt := {}
  deriving DecidableEq, Repr

section
variable {α : Type} [DecidableEq α]

/-- The loop of `common_config_file_iterator::get` (src/config_file.cpp:83-129) with `getline`
(detail/config_file.hpp:165-176): a line is converted by `to_internal` (`conv`) when it has been read. `m_value` is
overwritten field by field. -/
def CfIter.get (conv : List α → Option Str) (sep : α) (i : CfIter) (s : IStream α) : Except Fail (CfIter × IStream α) :=
  if _hok : (s.getline sep).2.ok = true then
    match conv (s.getline sep).1 with
    | none => .error .conversion
    | some l =>
      match i.it.line i.pre (stripLine l) with
      | .error f => .error f
      | .ok .skip => CfIter.get conv sep i (s.getline sep).2
      | .ok (.section_ p) => CfIter.get conv sep { i with pre := p } (s.getline sep).2
      | .ok (.option o) =>
        .ok ({ i with value := { i.value with stringKey := o.stringKey, value := o.value, unregistered := o.unregistered,
                                              originalTokens := o.originalTokens } }, (s.getline sep).2)
  else .ok ({ i with atEof := true }, (s.getline sep).2)
termination_by s.rest.length
decreasing_by all_goals exact IStream.getline_less s sep _hok

theorem CfIter.get_less (conv : List α → Option Str) (sep : α) (n : Nat) (i : CfIter) (s : IStream α) (hn : s.rest.length ≤ n)
    {i' : CfIter} {s' : IStream α} (h : i.get conv sep s = .ok (i', s')) (he : i'.atEof = false) :
    s'.rest.length < s.rest.length := by
  induction n generalizing i s i' s' with
  | zero =>
    rw [CfIter.get] at h
    split at h
    · rename_i hok
      have := IStream.getline_less s sep hok
      omega
    · injection h with h; injection h with h1 h2; rw [← h1] at he; cases he
  | succ n ih =>
    rw [CfIter.get] at h
    split at h
    · rename_i hok
      have hl := IStream.getline_less s sep hok
      split at h
      · cases h
      · split at h
        · cases h
        · exact Nat.lt_trans (ih _ _ (by omega) h he) hl
        · exact Nat.lt_trans (ih _ _ (by omega) h he) hl
        · injection h with h; injection h with h1 h2; rw [← h2]; exact hl
    · injection h with h; injection h with h1 h2; rw [← h1] at he; cases he

/-- `std::copy(first, last, back_inserter(result))` with the default-constructed `last`; `first != last` iff not at eof
(eof_iterator.hpp:83-89). -/
def CfIter.copy (conv : List α → Option Str) (sep : α) (i : CfIter) (s : IStream α) (result : List Opt) :
    Except Fail (List Opt × IStream α) :=
  if _he : i.atEof = true then .ok (result, s)
  else
    match _h : i.get conv sep s with
    | .error f => .error f
    | .ok (i', s') => CfIter.copy conv sep i' s' (result ++ [i.value])
termination_by if i.atEof then 0 else s.rest.length + 1
decreasing_by
  rw [if_neg _he]
  split
  · omega
  · rename_i hn
    have := CfIter.get_less conv sep _ i s (Nat.le_refl _) _h (by simpa using hn)
    omega

/-- The constructor of the iterator (detail/config_file.hpp:150-159, src/config_file.cpp:24-36) for the names of the options
(src/parsers.cpp:108-120): it calls `get`. -/
def openConfig (conv : List α → Option Str) (sep : α) (s : IStream α) (desc : List OptionDesc) (allowUnregistered : Bool) :
    Except Fail (CfIter × IStream α) :=
  match allowedNames desc [] with
  | .error f => .error f
  | .ok allowed =>
    match ConfigIter.make allowed allowUnregistered with
    | .error f => .error f
    | .ok it => CfIter.get conv sep { it } s

/-- `parse_config_file(basic_istream&, desc, allow_unregistered)` up to the conversion of the result (src/parsers.cpp:102-128). -/
def readConfig (conv : List α → Option Str) (sep : α) (s : IStream α) (desc : List OptionDesc) (allowUnregistered : Bool) :
    Except Fail (Parsed × IStream α) :=
  match openConfig conv sep s desc allowUnregistered with
  | .error f => .error f
  | .ok (i, s') =>
    match i.copy conv sep s' [] with
    | .error f => .error f
    | .ok (os, s'') => .ok ({ desc, options := os }, s'')

end

/-- `parse_config_file(std::istream&, …)`: `to_internal` of a `std::string` is the string (detail/convert.hpp:76-81). -/
def readConfigFile (s : IStream Char) (desc : List OptionDesc) (allowUnregistered : Bool := false) :
    Except Fail (Parsed × IStream Char) := readConfig some '\n' s desc allowUnregistered

/-- `parse_config_file(const char* filename, …)` (src/parsers.cpp:146-168); `none` if the file cannot be opened. -/
def readConfigFileNamed (filename : Str) (file : Option (IStream Char)) (desc : List OptionDesc) (allowUnregistered : Bool := false) :
    Except Fail Parsed :=
  match file with
  | none => .error (.readingFile filename)
  | some s =>
    if s.ok then
      match readConfigFile s desc allowUnregistered with
      | .error f => .error f
      | .ok (p, s') => if s'.bad then .error (.readingFile filename) else .ok p
    else .error (.readingFile filename)

/-! ### environment_iterator -/

/-- `environment_iterator` (environment_iterator.hpp): the entries from `m_environment` on. -/
structure EnvIter where
  entries : List Str := []
  atEof : Bool := false
  value : Str × Str := ([], [])
  deriving DecidableEq, Repr

/-- `environment_iterator::get` (environment_iterator.hpp:33-46). -/
def EnvIter.get (i : EnvIter) : Except Fail EnvIter :=
  match i.entries with
  | [] => .ok { i with atEof := true }
  | e :: es =>
    match splitEnv e with
    | .error f => .error f
    | .ok v => .ok { i with entries := es, value := v }

/-- `for(environment_iterator i(environ), e; i != e; ++i)` (src/parsers.cpp:206-215), at most `fuel` rounds. -/
def EnvIter.loop (mapper : Str → Str) : Nat → EnvIter → List Opt → Except Fail (List Opt)
  | fuel, i, result =>
    if i.atEof then .ok result
    else
      match fuel with
      | 0 => .error .fuel
      | fuel + 1 =>
        let result :=
          if mapper i.value.1 = [] then result else result ++ [{ stringKey := mapper i.value.1, value := [i.value.2] }]
        match i.get with
        | .error f => .error f
        | .ok i' => EnvIter.loop mapper fuel i' result

/-- `parse_environment(desc, name_mapper)` (src/parsers.cpp:200-218). -/
def readEnvironment (environ : List Str) (desc : List OptionDesc) (mapper : Str → Str) : Except Fail Parsed :=
  match EnvIter.get { entries := environ } with
  | .error f => .error f
  | .ok i =>
    match i.loop mapper (environ.length + 1) [] with
    | .error f => .error f
    | .ok os => .ok { desc, options := os }

end PO
