import Verif.Model.Main
/-!
# How command lines are written

Independent of how the parser scans them: the ways in which options and files can be written.
-/

namespace Bulloak

/-- What is said on a command line: an option with its value (empty for flags), or a file. -/
inductive Item where
  | opt (o : Opt) (v : Str)
  | file (f : Str)
  deriving DecidableEq

/-- The options said, with their values. -/
def Item.options : List Item → List (Opt × Str)
  | [] => []
  | .opt o v :: is => (o, v) :: Item.options is
  | .file _ :: is => Item.options is

/-- The files said. -/
def Item.files : List Item → List Str
  | [] => []
  | .opt _ _ :: is => Item.files is
  | .file f :: is => f :: Item.files is

/-- An argument that does not look like an option: it does not begin with a dash or is a single dash. -/
def Operand (a : Str) : Prop := a = c!"-" ∨ ∀ r, a ≠ '-' :: r

/-- `cs` are the letters of the flags `os`. -/
inductive Letters (opts : List Opt) : List Opt → Str → Prop
  | nil : Letters opts [] []
  | cons {o : Opt} {c : Char} {os : List Opt} {cs : Str} : o ∈ opts → o.valued = false → o.short = some c → Letters opts os cs →
      Letters opts (o :: os) (c :: cs)

/-- `Spelled opts items args`: the arguments are a way to write the items. -/
inductive Spelled (opts : List Opt) : List Item → List Str → Prop
  | nil : Spelled opts [] []
  /-- `FILE` -/
  | file {f : Str} {is : List Item} {as : List Str} : f ≠ [] → Operand f → Spelled opts is as → Spelled opts (.file f :: is) (f :: as)
  /-- `--flag` -/
  | flag {o : Opt} {is : List Item} {as : List Str} : o ∈ opts → o.valued = false → Spelled opts is as →
      Spelled opts (.opt o [] :: is) ((c!"--" ++ o.long) :: as)
  /-- `--option=value` -/
  | valueEq {o : Opt} {v : Str} {is : List Item} {as : List Str} : o ∈ opts → o.valued = true → Spelled opts is as →
      Spelled opts (.opt o v :: is) ((c!"--" ++ o.long ++ '=' :: v) :: as)
  /-- `--option value` -/
  | valueNext {o : Opt} {v : Str} {is : List Item} {as : List Str} : o ∈ opts → o.valued = true → Operand v → Spelled opts is as →
      Spelled opts (.opt o v :: is) ((c!"--" ++ o.long) :: v :: as)
  /-- `-abc` -/
  | letters {os : List Opt} {cs : Str} {is : List Item} {as : List Str} : os ≠ [] → Letters opts os cs → Spelled opts is as →
      Spelled opts (os.map (.opt · []) ++ is) (('-' :: cs) :: as)
  /-- `-abcVALUE` -/
  | lettersValue {os : List Opt} {cs : Str} {o : Opt} {c d : Char} {v : Str} {is : List Item} {as : List Str} : Letters opts os cs →
      o ∈ opts → o.valued = true → o.short = some c → d ≠ '=' → Spelled opts is as →
      Spelled opts (os.map (.opt · []) ++ .opt o (d :: v) :: is) (('-' :: cs ++ c :: d :: v) :: as)
  /-- `-abc=VALUE` -/
  | lettersEq {os : List Opt} {cs : Str} {o : Opt} {c : Char} {v : Str} {is : List Item} {as : List Str} : Letters opts os cs →
      o ∈ opts → o.valued = true → o.short = some c → Spelled opts is as →
      Spelled opts (os.map (.opt · []) ++ .opt o v :: is) (('-' :: cs ++ c :: '=' :: v) :: as)
  /-- `-abc VALUE` -/
  | lettersNext {os : List Opt} {cs : Str} {o : Opt} {c : Char} {v : Str} {is : List Item} {as : List Str} : Letters opts os cs →
      o ∈ opts → o.valued = true → o.short = some c → Operand v → Spelled opts is as →
      Spelled opts (os.map (.opt · []) ++ .opt o v :: is) (('-' :: cs ++ [c]) :: v :: as)
  /-- `-- FILE...` -/
  | rest {fs : List Str} : (∀ f ∈ fs, f ≠ []) → Spelled opts (fs.map .file) (c!"--" :: fs)

/-! ## The options of bulloak, as documented in its README and help text -/

/-- `-w`, `--write-files`. -/
def Spec.optWrite : Opt := ⟨some 'w', c!"write-files", false⟩
/-- `-f`, `--force-write`. -/
def Spec.optForce : Opt := ⟨some 'f', c!"force-write", false⟩
/-- `-s VERSION`, `--solidity-version VERSION`. -/
def Spec.optVersion : Opt := ⟨some 's', c!"solidity-version", true⟩
/-- `-S`, `--vm-skip`. -/
def Spec.optVmSkip : Opt := ⟨some 'S', c!"vm-skip", false⟩
/-- `-m`, `--skip-modifiers`. -/
def Spec.optSkip : Opt := ⟨some 'm', c!"skip-modifiers", false⟩
/-- `--fix`. -/
def Spec.optFix : Opt := ⟨none, c!"fix", false⟩
/-- `--stdout`. -/
def Spec.optStdout : Opt := ⟨none, c!"stdout", false⟩

/-- The options of `bulloak scaffold`. -/
def Spec.scaffoldTable : List Opt := [optWrite, optForce, optVersion, optVmSkip, optSkip]

/-- The options of `bulloak check`. -/
def Spec.checkTable : List Opt := [optFix, optStdout, optSkip]

/-- The argument asks for help or the version. -/
def Spec.AsksHelp (a : Str) : Prop :=
  a = c!"help" ∨ a = c!"--help" ∨ a = c!"--version" ∨ ∃ cs, a = '-' :: cs ∧ cs.head? ≠ some '-' ∧ ('h' ∈ cs ∨ 'V' ∈ cs)

/-- No option is said twice. -/
def Once (items : List Item) : Prop := ((Item.options items).map Prod.fst).Nodup

/-- An option is said. -/
def Said (o : Opt) (items : List Item) : Prop := ∃ v, .opt o v ∈ items

/-- The arguments of a command ask for its help: behind options and files that are written properly, no option twice, comes `--help`, or `-h`, possibly behind the letters of further
options. What comes behind does not matter. -/
def Spec.HelpLine (opts : List Opt) (args : List Str) : Prop :=
  ∃ before a behind items os, args = before ++ a :: behind ∧ c!"--" ∉ before ∧ Spelled opts items before ∧
    (a = c!"--help" ∧ os = [] ∨ ∃ cs r, a = '-' :: cs ++ 'h' :: r ∧ Letters opts os cs) ∧ Once (items ++ os.map (.opt · []))

/-- The command line asks for help or for the version. -/
inductive Spec.HelpAsked : List Str → Prop
  | help : HelpAsked [c!"help"]
  | helpOn {c : Str} : c = c!"scaffold" ∨ c = c!"check" ∨ c = c!"help" → HelpAsked [c!"help", c]
  | long {a : Str} {as : List Str} : a = c!"--help" ∨ a = c!"--version" → HelpAsked (a :: as)
  | letter {c : Char} {r : Str} {as : List Str} : c = 'h' ∨ c = 'V' → HelpAsked (('-' :: c :: r) :: as)
  | scaffold {as : List Str} : HelpLine scaffoldTable as → HelpAsked (c!"scaffold" :: as)
  | check {as : List Str} : HelpLine checkTable as → HelpAsked (c!"check" :: as)

end Bulloak
