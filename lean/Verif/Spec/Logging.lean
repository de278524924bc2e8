/-!
# What flags mean
-/

namespace Xi

namespace Logging

/-- The places of a command line where a flag is followed by something that is not a flag, each with the name of the flag and its value: a flag
begins with `-`, and its name is what is left without all of those. -/
def given (args : List (List Char)) : List (List Char × List Char) :=
  (args.zip (args.drop 1)).filterMap fun p =>
    if p.1.head? = some '-' ∧ p.2.head? ≠ some '-' then some (p.1.dropWhile (· = '-'), p.2) else none

/-- The value of a flag: the last that is given. -/
def valueOf (name : List Char) (args : List (List Char)) : Option (List Char) :=
  (((given args).filter (·.1 = name)).map (·.2)).getLast?

end Logging

end Xi
