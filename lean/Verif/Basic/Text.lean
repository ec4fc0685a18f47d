/-!
# Texts and byte offsets

A Rust `&str` / `String` is modelled by the list of its chars. Byte offsets (`TextSize`) are
`Nat`s; the byte length of a char is `Char.utf8Size`, as `char::len_utf8` in Rust.
`u32` overflow of `TextSize` (texts of 4 GB and more) is not modelled.
-/

namespace Ludtwig

abbrev Text := List Char

/-- `str::len`: length in UTF-8 bytes. -/
def byteLen : Text → Nat
  | [] => 0
  | c :: s => c.utf8Size + byteLen s

/-- Split a text at a byte offset. `none` if the offset is beyond the end or not on a char
boundary: exactly the cases in which `String::replace_range` / slicing panics. -/
def splitAtByte : Nat → Text → Option (Text × Text)
  | 0, s => some ([], s)
  | _ + 1, [] => none
  | n + 1, c :: s =>
    if c.utf8Size ≤ n + 1 then
      (splitAtByte (n + 1 - c.utf8Size) s).map (fun p => (c :: p.1, p.2))
    else none

/-- `rowan::TextRange` (text-size crate): `start ≤ end` always holds by construction. -/
structure TextRange where
  start : Nat
  stop : Nat
  deriving DecidableEq, Repr

/-- `TextRange::ordering` (text-size crate): `Less` if `a.end <= b.start`, `Greater` if
`b.end <= a.start`, otherwise (they overlap) `Equal`. -/
def TextRange.ordering (a b : TextRange) : Ordering :=
  if a.stop ≤ b.start then .lt
  else if b.stop ≤ a.start then .gt
  else .eq

/-- `String::replace_range(start..end, with)`; `none` is the panic. -/
def replaceRange (s : Text) (r : TextRange) (new : Text) : Option Text :=
  if r.stop < r.start then none else
  match splitAtByte r.start s with
  | none => none
  | some (pre, rest) =>
    match splitAtByte (r.stop - r.start) rest with
    | none => none
    | some (_, post) => some (pre ++ new ++ post)

end Ludtwig
