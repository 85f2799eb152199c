/- Lines of text, comments and padding, stated with list functions only. -/
namespace Vulture.Spec

/-- White space of the C locale. -/
def White (c : Char) : Prop :=
  c = ' ' ∨ c = '\t' ∨ c = '\n' ∨ c = '\x0b' ∨ c = '\x0c' ∨ c = '\r'

/-- `line` consists of padding, then `body`, then padding, then perhaps a comment; `body` has no
padding of its own and no comment character. -/
structure Padded (line body : List Char) : Prop where
  split : ∃ pre post com, line = pre ++ body ++ post ++ com ∧
    (∀ c ∈ pre, White c) ∧ (∀ c ∈ post, White c) ∧ (com = [] ∨ ∃ t, com = '#' :: t)
  clean : '#' ∉ body
  front : ∀ c t, body = c :: t → ¬ White c
  back : ∀ c t, body = t ++ [c] → ¬ White c

end Vulture.Spec
