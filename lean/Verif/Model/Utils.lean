import Verif.Model.Unicode
/-!
# String utilities (`crates/syntax/src/utils.rs`) and the parts of `str` they use
-/

namespace Bulloak

/-- Models `str::trim_start`. -/
def trimStart (s : Str) : Str := s.dropWhile isWs

/-- Models `str::trim_end`. -/
def trimEnd (s : Str) : Str := (s.reverse.dropWhile isWs).reverse

/-- Models `str::trim`. -/
def trim (s : Str) : Str := trimEnd (trimStart s)

/-- Splits off words at white space; `cur` is the word being read. -/
def splitWsAux (cur : Str) : Str → List Str
  | [] => if cur = [] then [] else [cur]
  | c :: r =>
    if isWs c then (if cur = [] then splitWsAux [] r else cur :: splitWsAux [] r)
    else splitWsAux (cur ++ [c]) r

/-- Models `str::split_whitespace`. -/
def splitWs (s : Str) : List Str := splitWsAux [] s

/-- Splits at every line feed; `cur` is the line being read. -/
def splitNlAux (cur : Str) : Str → List Str
  | [] => [cur]
  | c :: r => if c = '\n' then cur :: splitNlAux [] r else splitNlAux (cur ++ [c]) r

/-- Strips one trailing carriage return. -/
def stripCr (s : Str) : Str := if s.getLast? = some '\r' then s.dropLast else s

/-- Models `str::lines`: lines are terminated by `\n` (an empty last piece is not a line) and one `\r`
before the terminator is dropped. -/
def lines (s : Str) : List Str :=
  let ls := splitNlAux [] s
  let body := ls.dropLast.map stripCr
  match ls.getLast? with
  | some [] | none => body
  | some l => body ++ [l]

/-- `s.strip_prefix(p)`. -/
def stripPrefix (p s : Str) : Option Str :=
  match p, s with
  | [], s => some s
  | _ :: _, [] => none
  | a :: p, b :: s => if a = b then stripPrefix p s else none

/-- Models `str::trim_start_matches(p)` for a non-empty `p`: removes `p` from the front as often as
possible (`fuel` ≥ length of the string suffices). -/
def trimStartMatches (p : Str) : Nat → Str → Str
  | 0, s => s
  | fuel + 1, s =>
    match stripPrefix p s with
    | some s' => trimStartMatches p fuel s'
    | none => s

/-- `[sep].join`-style concatenation: models joining with a separator. -/
def joinSep (sep : Str) : List Str → Str
  | [] => []
  | [x] => x
  | x :: y :: xs => x ++ sep ++ joinSep sep (y :: xs)

/-- Decimal representation of a number (Rust's `Display` for `usize`). -/
def natToStr (n : Nat) : Str := Nat.toDigits 10 n

section
variable [U : Ucd]

/-- Models `upper_first_letter` (`crates/syntax/src/utils.rs:25-31`). -/
def upperFirst : Str → Str
  | [] => []
  | c :: r => U.toUpper c ++ r

/-- Models `lower_first_letter` (`crates/syntax/src/utils.rs:53-59`). -/
def lowerFirst : Str → Str
  | [] => []
  | c :: r => U.toLower c ++ r

/-- Models `sanitize` (`crates/syntax/src/utils.rs:82-86`). -/
def sanitize (s : Str) : Str :=
  (s.map (fun c => if c = '-' then '_' else c)).filter (fun c => U.isXid c || c == ' ')

/-- Models `to_pascal_case` (`crates/syntax/src/utils.rs:109-111`). -/
def toPascal (s : Str) : Str := (splitWs s).flatMap upperFirst

end

/-- Models `repeat_str(" ", n)` (`crates/syntax/src/utils.rs:131-133`). -/
def spaces (n : Nat) : Str := List.replicate n ' '

/-- Models `pluralize` (`crates/syntax/src/utils.rs:154-164`). -/
def pluralize (count : Nat) (singular plural : Str) : Str :=
  if count = 1 then singular else plural

end Bulloak
