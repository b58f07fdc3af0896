import Verif.Model.Basic
/-!
# Unicode character tables

`char::is_whitespace` is small and given concretely.  The big tables (`char::is_alphanumeric`,
`unicode_xid::is_xid_continue`, `char::to_uppercase`, `char::to_lowercase`) are a parameter of the
model; `Ucd.Lawful` states the facts about them that some theorems use.
-/

namespace Bulloak

/-- Models `char::is_whitespace` (Unicode `White_Space`), used at
`crates/syntax/src/tokenizer.rs:370` and by `str::trim` / `str::split_whitespace`. -/
def isWs (c : Char) : Bool :=
  let n := c.toNat
  (9 ≤ n && n ≤ 13) || n == 32 || n == 0x85 || n == 0xA0 || n == 0x1680 ||
  (0x2000 ≤ n && n ≤ 0x200A) || n == 0x2028 || n == 0x2029 || n == 0x202F ||
  n == 0x205F || n == 0x3000

/-- The Unicode tables the code consults. -/
class Ucd where
  /-- `char::is_alphanumeric` (`crates/syntax/src/tokenizer.rs:398`). -/
  isAlnum : Char → Bool
  /-- `UnicodeXID::is_xid_continue` (`crates/syntax/src/utils.rs:85`). -/
  isXid : Char → Bool
  /-- `char::to_uppercase` (`crates/syntax/src/utils.rs:28`). -/
  toUpper : Char → Str
  /-- `char::to_lowercase` (`crates/syntax/src/utils.rs:56`). -/
  toLower : Char → Str

/-- ASCII letter or digit. -/
def isAsciiAlnum (c : Char) : Bool :=
  let n := c.toNat
  (48 ≤ n && n ≤ 57) || (65 ≤ n && n ≤ 90) || (97 ≤ n && n ≤ 122)

/-- ASCII upper-casing of one character. -/
def asciiUpper (c : Char) : Char :=
  if 97 ≤ c.toNat && c.toNat ≤ 122 then Char.ofNat (c.toNat - 32) else c

/-- ASCII lower-casing of one character. -/
def asciiLower (c : Char) : Char :=
  if 65 ≤ c.toNat && c.toNat ≤ 90 then Char.ofNat (c.toNat + 32) else c

/-- Characters on which all versions of the Unicode tables agree trivially: ASCII and the four
box-drawing characters used by `.tree` files. -/
def isPlain (c : Char) : Bool :=
  c.toNat < 128 || c == '├' || c == '└' || c == '─' || c == '│'

/-- Facts about the Unicode tables.  `plain_*` fix the behaviour on ASCII and the four box-drawing
characters; the others are general facts of the Unicode character database. -/
class LawfulUcd [U : Ucd] : Prop where
  plain_alnum : ∀ c, isPlain c = true → U.isAlnum c = isAsciiAlnum c
  plain_xid : ∀ c, isPlain c = true → U.isXid c = (isAsciiAlnum c || c == '_')
  plain_upper : ∀ c, isPlain c = true → U.toUpper c = [asciiUpper c]
  plain_lower : ∀ c, isPlain c = true → U.toLower c = [asciiLower c]
  /-- no white space character is an identifier character -/
  ws_not_xid : ∀ c, isWs c = true → U.isXid c = false
  /-- case mappings of identifier characters consist of identifier characters -/
  upper_xid : ∀ c, U.isXid c = true → ∀ d ∈ U.toUpper c, U.isXid d = true
  lower_xid : ∀ c, U.isXid c = true → ∀ d ∈ U.toLower c, U.isXid d = true
  /-- case mappings are never empty -/
  upper_ne : ∀ c, U.toUpper c ≠ []
  lower_ne : ∀ c, U.toLower c ≠ []
  /-- upper-casing does not produce white space, except from the same white space -/
  upper_ws : ∀ c, ∀ d ∈ U.toUpper c, isWs d = true → d = c
  /-- the only non-ASCII characters whose lower case contains an ASCII letter are U+212A (KELVIN SIGN,
  lower case `k`) and U+0130 (lower case `i` followed by U+0307) -/
  lower_ascii : ∀ c, ∀ d ∈ U.toLower c, isAsciiAlnum d = true →
    c.toNat < 128 ∨ c.toNat = 0x212A ∨ c.toNat = 0x130
  lower_kelvin : U.toLower (Char.ofNat 0x212A) = ['k']
  lower_idot : U.toLower (Char.ofNat 0x130) = ['i', Char.ofNat 0x307]

end Bulloak
