import Verif.Rt.Latex
/-
What LaTeX needs to read a text: every brace, parenthesis and bracket is closed by one of its kind, in the right
order, every `\left` by a `\right`, and all commands are known.  A reader that keeps a stack; it knows nothing of
expressions.
-/
namespace VM.Spec

/-- What was opened and has to be closed. -/
inductive Opened
  | brace
  | paren
  | bracket
  | left (c : Char)
deriving DecidableEq

/-- The reader: what is open, the innermost first; and, after a backslash, the letters read so far. -/
structure Reader where
  open' : List Opened
  word : Option Txt
deriving DecidableEq

/-- The delimiters that `\left` and `\right` may stand before. -/
def Delims (a b : Char) : Prop := (a = '(' ∧ b = ')') ∨ (a = '[' ∧ b = ']') ∨ (a = '|' ∧ b = '|')

instance (a b : Char) : Decidable (Delims a b) := inferInstanceAs (Decidable (_ ∨ _))

/-- Closes the innermost. -/
def Opened.close (o : Opened) : List Opened → Option Reader
  | o' :: st => if o' = o then some ⟨st, none⟩ else none
  | [] => none

/-- Reads a character that is not part of a command. -/
def readChar (st : List Opened) (c : Char) : Option Reader :=
  if c = '\\' then some ⟨st, some []⟩
  else if c = '{' then some ⟨.brace :: st, none⟩
  else if c = '(' then some ⟨.paren :: st, none⟩
  else if c = '[' then some ⟨.bracket :: st, none⟩
  else if c = '}' then Opened.brace.close st
  else if c = ')' then Opened.paren.close st
  else if c = ']' then Opened.bracket.close st
  else some ⟨st, none⟩

/-- Reads the delimiter after `\right`. -/
def readRight (c : Char) : List Opened → Option Reader
  | .left d :: st => if Delims d c then some ⟨st, none⟩ else none
  | _ => none

/-- The commands of LaTeX the library uses, without the backslash (besides `\left` and `\right`). -/
def latexWords : List Txt :=
  [t!"frac", t!"cdot", t!"exp", t!"sin", t!"cos", t!"tan", t!"ln", t!"log", t!"sqrt", t!"nabla", t!"partial", t!"int",
   t!"Omega", t!"mathrm", t!"chi", t!":"]

/-- A command of the library or one of the commands `ex` of the user. -/
def knownWord (ex : List Txt) (w : Txt) : Bool := latexWords.contains w || ex.contains w

/-- Reads a character.  A command is a backslash with letters, or a backslash with one other character. -/
def Reader.step (ex : List Txt) (s : Reader) (c : Char) : Option Reader :=
  match s.word with
  | none => readChar s.open' c
  | some w =>
    if c.isAlpha then some ⟨s.open', some (w ++ [c])⟩
    else if w = [] then (if knownWord ex [c] then some ⟨s.open', none⟩ else none)
    else if w = t!"left" then (if c = ' ' then some s else some ⟨.left c :: s.open', none⟩)
    else if w = t!"right" then (if c = ' ' then some s else readRight c s.open')
    else if knownWord ex w then readChar s.open' c
    else none

/-- Reads a text. -/
def Reader.run (ex : List Txt) (s : Reader) : Txt → Option Reader
  | [] => some s
  | c :: cs => (s.step ex c).bind (Reader.run ex · cs)

/-- The text may end here: not after a lone backslash, `\left` or `\right`. -/
def MayEnd (ex : List Txt) : Option Txt → Prop
  | none => True
  | some w => w ≠ [] ∧ w ≠ t!"left" ∧ w ≠ t!"right" ∧ knownWord ex w = true

instance (ex : List Txt) : DecidablePred (MayEnd ex) := fun
  | none => inferInstanceAs (Decidable True)
  | some w => inferInstanceAs (Decidable (w ≠ [] ∧ w ≠ _ ∧ w ≠ _ ∧ _))

/-- The text can be read with the commands of the library and `ex`, and everything that was opened was closed. -/
def WellSet (ex : List Txt) (s : Txt) : Prop :=
  match Reader.run ex ⟨[], none⟩ s with
  | some r => r.open' = [] ∧ MayEnd ex r.word
  | none => False

instance (ex : List Txt) (s : Txt) : Decidable (WellSet ex s) := by
  unfold WellSet
  split
  · exact inferInstanceAs (Decidable (_ ∧ MayEnd _ _))
  · exact inferInstanceAs (Decidable False)

end VM.Spec
