/-!
# Line breaking by the rules of UAX #14

The rules of *Unicode Standard Annex #14, Unicode Line Breaking Algorithm*, revision 39
(Unicode 10), whose test file is the one that the crate carries.  Classes are numbered as in
the enumeration `ULineBreak` of ICU, to which the documentation of `linebreak_property` refers.
A history is the list of classes of the characters before a position, the latest first.

One thing is left out of LB1, as it needs another property of characters: class SA is always
treated as AL, never as CM.
-/

namespace Xi

namespace Uax14

abbrev XX := 0
abbrev AI := 1
abbrev AL := 2
abbrev B2 := 3
abbrev BA := 4
abbrev BB := 5
abbrev BK := 6
abbrev CB := 7
abbrev CL := 8
abbrev CM := 9
abbrev CR := 10
abbrev EX := 11
abbrev GL := 12
abbrev HY := 13
abbrev ID := 14
abbrev IN := 15
abbrev IS := 16
abbrev LF := 17
abbrev NS := 18
abbrev NU := 19
abbrev OP := 20
abbrev PO := 21
abbrev PR := 22
abbrev QU := 23
abbrev SA := 24
abbrev SG := 25
abbrev SP := 26
abbrev SY := 27
abbrev ZW := 28
abbrev NL := 29
abbrev WJ := 30
abbrev H2 := 31
abbrev H3 := 32
abbrev JL := 33
abbrev JT := 34
abbrev JV := 35
abbrev CP := 36
abbrev CJ := 37
abbrev HL := 38
abbrev RI := 39
abbrev EB := 40
abbrev EM := 41
abbrev ZWJ := 42

/-- What to do at a position: break always, break if need be, or not break. -/
inductive Action where
  | hard
  | soft
  | no
  deriving DecidableEq, Repr

/-- LB1: ambiguous classes are resolved. -/
def lb1 (x : Nat) : Nat := if x ∈ [AI, SG, XX, SA] then AL else if x = CJ then NS else x

/-- The classes to which a combining mark does not attach (LB9). -/
def noMarks : List Nat := [BK, CR, LF, NL, SP, ZW]

/-- LB9 and LB10: combining marks and joiners are dropped after what they attach to, and
otherwise are alphabetic. -/
def resolve : List Nat → List Nat
  | [] => []
  | x :: h =>
    if x = CM ∨ x = ZWJ then
      match resolve h with
      | [] => [AL]
      | y :: r => if y ∈ noMarks then AL :: y :: r else y :: r
    else x :: resolve h

/-- What the rules look at in a history. -/
structure Features where
  /-- The class before the position, marks dropped. -/
  last : Nat
  /-- The class before the spaces, if any, before the position; zero if there is none. -/
  beforeSpaces : Nat
  /-- HL (HY | BA) is before the position. -/
  hebrewHyphen : Bool
  /-- The number of regional indicators directly before the position is odd. -/
  oddIndicators : Bool
  /-- The character before the position is a zero width joiner. -/
  joiner : Bool
  /-- ZW SP* is before the position. -/
  zeroWidth : Bool
  deriving DecidableEq, Repr

/-- Whether the classes before the position are HL (HY | BA). -/
def isHebrewHyphen : List Nat → Bool
  | a :: b :: _ => decide (b = HL ∧ (a = HY ∨ a = BA))
  | _ => false

/-- What the rules look at. -/
def features (h : List Nat) : Features :=
  { last := (resolve h).headD 0
    beforeSpaces := ((resolve h).dropWhile (· == SP)).headD 0
    hebrewHyphen := isHebrewHyphen (resolve h)
    oddIndicators := decide (((resolve h).takeWhile (· == RI)).length % 2 = 1)
    joiner := h.head? == some ZWJ
    zeroWidth := (h.dropWhile (· == SP)).head? == some ZW }

/-- LB21 to LB31: the rules for a pair of classes. -/
def pairRules (f : Features) (a b : Nat) : Action :=
  -- LB21
  if b ∈ [BA, HY, NS] ∨ a = BB then .no
  -- LB21a
  else if f.hebrewHyphen then .no
  -- LB21b
  else if a = SY ∧ b = HL then .no
  -- LB22
  else if a ∈ [AL, HL, EX, ID, EB, EM, IN, NU] ∧ b = IN then .no
  -- LB23
  else if a ∈ [AL, HL] ∧ b = NU ∨ a = NU ∧ b ∈ [AL, HL] then .no
  -- LB23a
  else if a = PR ∧ b ∈ [ID, EB, EM] ∨ a ∈ [ID, EB, EM] ∧ b = PO then .no
  -- LB24
  else if a ∈ [PR, PO] ∧ b ∈ [AL, HL] ∨ a ∈ [AL, HL] ∧ b ∈ [PR, PO] then .no
  -- LB25
  else if (a, b) ∈ [(CL, PO), (CP, PO), (CL, PR), (CP, PR), (NU, PO), (NU, PR), (PO, OP), (PO, NU), (PR, OP), (PR, NU),
    (HY, NU), (IS, NU), (NU, NU), (SY, NU)] then .no
  -- LB26
  else if a = JL ∧ b ∈ [JL, JV, H2, H3] ∨ a ∈ [JV, H2] ∧ b ∈ [JV, JT] ∨ a ∈ [JT, H3] ∧ b = JT then .no
  -- LB27
  else if a ∈ [JL, JV, JT, H2, H3] ∧ b ∈ [IN, PO] ∨ a = PR ∧ b ∈ [JL, JV, JT, H2, H3] then .no
  -- LB28
  else if a ∈ [AL, HL] ∧ b ∈ [AL, HL] then .no
  -- LB29
  else if a = IS ∧ b ∈ [AL, HL] then .no
  -- LB30
  else if a ∈ [AL, HL, NU] ∧ b = OP ∨ a = CP ∧ b ∈ [AL, HL, NU] then .no
  -- LB30a
  else if a = RI ∧ b = RI ∧ f.oddIndicators then .no
  -- LB30b
  else if a = EB ∧ b = EM then .no
  -- LB31
  else .soft

/-- LB11 to LB20, and then the others. -/
def resolvedRules (f : Features) (a b : Nat) : Action :=
  -- LB11
  if a = WJ ∨ b = WJ then .no
  -- LB12, LB12a
  else if a = GL then .no
  else if b = GL ∧ a ∉ [SP, BA, HY] then .no
  -- LB13
  else if b ∈ [CL, CP, EX, IS, SY] then .no
  -- LB14 to LB17
  else if f.beforeSpaces = OP then .no
  else if f.beforeSpaces = QU ∧ b = OP then .no
  else if f.beforeSpaces ∈ [CL, CP] ∧ b = NS then .no
  else if f.beforeSpaces = B2 ∧ b = B2 then .no
  -- LB18
  else if a = SP then .soft
  -- LB19
  else if a = QU ∨ b = QU then .no
  -- LB20
  else if a = CB ∨ b = CB then .soft
  else pairRules f a b

/-- All rules, for the class after the position. -/
def rules (f : Features) (b : Nat) : Action :=
  -- LB4, LB5
  if f.last = CR ∧ b = LF then .no
  else if f.last ∈ [BK, CR, LF, NL] then .hard
  -- LB6, LB7
  else if b ∈ [BK, CR, LF, NL, SP, ZW] then .no
  -- LB8
  else if f.zeroWidth then .soft
  -- LB8a
  else if f.joiner ∧ b ∈ [ID, EB, EM] then .no
  -- LB9, LB10
  else if b = CM ∨ b = ZWJ then (if f.last = SP then resolvedRules f f.last AL else .no)
  else resolvedRules f f.last b

/-- What to do between the history, which is not empty, and the class after. -/
def action (h : List Nat) (x : Nat) : Action := rules (features (h.map lb1)) (lb1 x)

end Uax14

end Xi
