/- Specification of paths, in terms of their text alone. -/
namespace Atsc

/-- `s` is the file `name` in the directory written `dir` (empty, or ending in `/`). -/
structure Names (s dir name : List Char) : Prop where
  text : s = dir ++ name
  dir : dir = [] ∨ ∃ d, dir = d ++ ['/']
  slash : '/' ∉ name
  ne : name ≠ []
  here : name ≠ ['.']
  up : name ≠ ['.', '.']

/-- The file name `name` is `stem`, followed by a dot and `ext` if there is one: the extension is what follows the last dot, unless that dot is the
first character. -/
inductive NameParts (name : List Char) : List Char → Option (List Char) → Prop
  | dotted {stem ext : List Char} : name = stem ++ '.' :: ext → '.' ∉ ext → stem ≠ [] → NameParts name stem (some ext)
  | plain : '.' ∉ name.tail → NameParts name name none

/-- Text a path may end in without naming anything else: `/` and `/.`, any number of times. -/
inductive Trail : List Char → Prop
  | nil : Trail []
  | slash {t : List Char} : Trail t → Trail (t ++ ['/'])
  | dot {t : List Char} : Trail t → Trail (t ++ ['/', '.'])

/-- A path that ends in no file name: the root, `.`, or something ending in `..`. -/
inductive NoName : List Char → Prop
  | root {t : List Char} : Trail t → NoName t
  | here {t : List Char} : Trail t → NoName ('.' :: t)
  | up {dir t : List Char} : (dir = [] ∨ ∃ d, dir = d ++ ['/']) → Trail t → NoName (dir ++ '.' :: '.' :: t)

end Atsc
