/-!
# Naming conventions (model)

Transcription of `crates/ludtwig/src/check/naming_convention.rs`.
A Rust `&str` / `String` is modelled by the list of its chars (`List Char`).
`char::is_ascii_uppercase` etc. are Lean's `Char.isUpper` etc., which test the same
ASCII ranges; `to_ascii_lowercase` / `to_ascii_uppercase` are `Char.toLower` / `Char.toUpper`
(ASCII only in Lean as well).
-/

namespace Ludtwig.Naming

/-- The `is_ascii_case` function pointer, naming_convention.rs 2–6. -/
def isAsciiCase (screaming : Bool) (c : Char) : Bool :=
  if screaming then c.isUpper else c.isLower

/-- The `to_ascii_case` function pointer, naming_convention.rs 34–38. -/
def toAsciiCase (screaming : Bool) (c : Char) : Char :=
  if screaming then c.toUpper else c.toLower

/-- The loop of `is_valid_ascii_alpha_snake_case`, naming_convention.rs 8–30.
`idx` is the enumeration index of the next char; `peek` is the head of the rest. -/
def validSnakeFrom (screaming : Bool) : Nat → List Char → Bool
  | _, [] => true
  | idx, c :: rest =>
    -- first or last should not be an underline
    if (idx == 0 || rest.isEmpty) && c == '_' then false
    -- chars must match the required case, or be a digit or underline
    else if !isAsciiCase screaming c && !c.isDigit && c != '_' then false
    -- no two underlines next to each other
    else if c == '_' && rest.head? == some '_' then false
    else validSnakeFrom screaming (idx + 1) rest

/-- `is_valid_ascii_alpha_snake_case`, naming_convention.rs 1–31. -/
def isValidAsciiAlphaSnakeCase (s : List Char) (screaming : Bool) : Bool :=
  validSnakeFrom screaming 0 s

/-- The test of naming_convention.rs 60 / 142 on the peeked char. -/
def nextPlacesSep : Option Char → Bool
  | none => false
  | some n => n == '_' || n == '-' || n.isUpper

/-- The loop of `try_make_snake_case`, naming_convention.rs 40–78 (the chars pushed to `attempt`). -/
def snakeAttemptFrom (screaming : Bool) : Nat → List Char → List Char
  | _, [] => []
  | idx, c :: rest =>
    let continueWith := snakeAttemptFrom screaming (idx + 1) rest
    -- skip minus or underline at the start and end (48)
    if (idx == 0 || rest.isEmpty) && (c == '-' || c == '_') then continueWith
    -- first uppercase should not be pretended with underline (53)
    else if idx == 0 && c.isUpper then toAsciiCase screaming c :: continueWith
    -- next will already place an underline (60)
    else if (c == '-' || c == '_') && nextPlacesSep rest.head? then continueWith
    -- replace all minus with underline (67)
    else if c == '-' then '_' :: continueWith
    -- make an underline before each uppercase (73)
    else if c.isUpper then '_' :: toAsciiCase screaming c :: continueWith
    else toAsciiCase screaming c :: continueWith

/-- `try_make_snake_case`, naming_convention.rs 33–86. -/
def tryMakeSnakeCase (original : List Char) (screaming : Bool) : Option (List Char) :=
  let attempt := snakeAttemptFrom screaming 0 original
  if isValidAsciiAlphaSnakeCase attempt screaming then some attempt else none

/-- The loop of `is_valid_alphanumeric_kebab_case`, naming_convention.rs 89–116. -/
def validKebabFrom : Nat → List Char → Bool
  | _, [] => true
  | idx, c :: rest =>
    if (idx == 0 || rest.isEmpty) && c == '-' then false
    else if idx == 0 && !(c.isLower || c.isDigit || [':', '@', '#'].contains c) then false
    else if idx != 0 && !(c.isLower || c.isDigit || c == '-') then false
    else if c == '-' && rest.head? == some '-' then false
    else validKebabFrom (idx + 1) rest

/-- `is_valid_alphanumeric_kebab_case`, naming_convention.rs 88–119. -/
def isValidAlphanumericKebabCase (s : List Char) : Bool := validKebabFrom 0 s

/-- The loop of `try_make_kebab_case`, naming_convention.rs 122–160. -/
def kebabAttemptFrom : Nat → List Char → List Char
  | _, [] => []
  | idx, c :: rest =>
    let continueWith := kebabAttemptFrom (idx + 1) rest
    if (idx == 0 || rest.isEmpty) && (c == '-' || c == '_') then continueWith
    else if idx == 0 && c.isUpper then c.toLower :: continueWith
    else if (c == '-' || c == '_') && nextPlacesSep rest.head? then continueWith
    else if c == '_' then '-' :: continueWith
    else if c.isUpper then '-' :: c.toLower :: continueWith
    else c.toLower :: continueWith

/-- `try_make_kebab_case`, naming_convention.rs 121–168. -/
def tryMakeKebabCase (original : List Char) : Option (List Char) :=
  let attempt := kebabAttemptFrom 0 original
  if isValidAlphanumericKebabCase attempt then some attempt else none

/-- `str::trim_start_matches('_')`. -/
def trimStartUnderscores : List Char → List Char
  | '_' :: rest => trimStartUnderscores rest
  | s => s

/-- `is_camel_case`, naming_convention.rs 174–188. -/
def isCamelCase (name : List Char) : Bool :=
  match trimStartUnderscores name with
  | [] => true
  | first :: rest =>
    if !first.isLower then false
    else !(first :: rest).contains '_' && !(first :: rest).contains '-'

end Ludtwig.Naming
