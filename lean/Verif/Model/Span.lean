import Verif.Model.Basic
/-! # Positions and spans -/

namespace Bulloak

/-- Models `Position` (`crates/syntax/src/span.rs:39-51`).  `usize` is `Nat`.  `offset` is a byte offset. -/
structure Position where
  offset : Nat
  line : Nat
  column : Nat
  deriving DecidableEq, Repr

/-- Models `Position::new(0, 1, 1)` / `Position::default` (`crates/syntax/src/span.rs:53-57`). -/
def Position.start : Position := ⟨0, 1, 1⟩

/-- Models `Span` (`crates/syntax/src/span.rs:9-15`).  For tokens `end` is the position of the last
character (inclusive). -/
structure Span where
  start : Position
  stop : Position
  deriving DecidableEq, Repr

namespace Span
/-- Models `Span::splat` (`crates/syntax/src/span.rs:88-90`). -/
def splat (p : Position) : Span := ⟨p, p⟩
/-- Models `Span::with_start` (`crates/syntax/src/span.rs:94-96`). -/
def withStart (s : Span) (p : Position) : Span := { s with start := p }
/-- Models `Span::with_end` (`crates/syntax/src/span.rs:100-102`). -/
def withEnd (s : Span) (p : Position) : Span := { s with stop := p }
/-- Models `Span::default` (derived, `crates/syntax/src/span.rs:9`). -/
def default : Span := ⟨Position.start, Position.start⟩
end Span

end Bulloak
