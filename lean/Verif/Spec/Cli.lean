import Verif.Model.Cli
import Verif.Spec.List
/-! Specification vocabulary: command lines as lists of options that are given. -/
namespace Verif.Spec.CommandLine
open Verif.Cli

/-- The word `w` names the option `o`: one of its two spellings, or the beginning of a long spelling that is the beginning of no other. -/
def Names (c : Command) (w : Str) (o : Opt) : Prop :=
  o ∈ c.options ∧
    (w ∈ o.flags ∨ (s%"--" <+: w ∧ '=' ∉ w ∧ ∃ f ∈ o.flags, w <+: f ∧ ∀ o' ∈ c.options, ∀ f' ∈ o'.flags, w <+: f' → f' = f))

/-- The text looks like an option of the command: with two dashes, what is before `=` is the beginning of an option; with one dash, it begins with
a one-letter option. -/
def LooksLike (c : Command) (v : Str) : Prop :=
  ∃ o ∈ c.options, ∃ f ∈ o.flags,
    (s%"--" <+: v ∧ v.takeWhile (fun x => x ≠ '=') <+: f) ∨ (¬ s%"--" <+: v ∧ f.length = 2 ∧ f <+: v)

def IsDigit (x : Char) : Prop := '0' ≤ x ∧ x ≤ '9'

/-- A negative number: `-3`, `-0.5`, `-.5`. -/
def NegativeNumber (v : Str) : Prop :=
  ∃ a b, (∀ x ∈ a, IsDigit x) ∧ (∀ x ∈ b, IsDigit x) ∧ ((v = '-' :: a ∧ a ≠ []) ∨ (v = '-' :: a ++ '.' :: b ∧ b ≠ []))

/-- A text that is not taken for an option: it does not begin with a dash, or is a single dash, or is a negative number or has a space and does not
look like an option of the command. -/
def Plain (c : Command) (v : Str) : Prop :=
  v.head? ≠ some '-' ∨ v = s%"-" ∨ ((NegativeNumber v ∨ ' ' ∈ v) ∧ ¬ LooksLike c v)

/-- The option takes this text. -/
def Takes (o : Opt) (v : Str) : Prop :=
  match o.action with
  | .store => o.choices = [] ∨ v ∈ o.choices
  | .number => (Py.int? v).isSome
  | .collect => True
  | .many => True
  | .flag => False
  | .help => False

/-- Something given on the command line: the input; an option that is on (`--xml`); an option with its text as the next word, after `=`, or joined
to a one-letter option (`-fcsv`); `--rollup` alone; an option with any number of texts. -/
inductive Item where
  | input (name : Str)
  | on (o : Opt) (w : Str)
  | next (o : Opt) (w v : Str)
  | equals (o : Opt) (w v : Str)
  | joined (o : Opt) (w v : Str)
  | alone (o : Opt) (w : Str)
  | several (o : Opt) (w : Str) (vs : List Str)

/-- Its words. -/
def Item.words : Item → List Str
  | .input n => [n]
  | .on _ w => [w]
  | .next _ w v => [w, v]
  | .equals _ w v => [w ++ '=' :: v]
  | .joined _ w v => [w ++ v]
  | .alone _ w => [w]
  | .several _ w vs => w :: vs

/-- It can be given to this command. -/
def Item.Fits (c : Command) : Item → Prop
  | .input n => c.positional = true ∧ Plain c n
  | .on o w => Names c w o ∧ o.action = .flag
  | .next o w v => Names c w o ∧ o.action ≠ .many ∧ Takes o v ∧ Plain c v
  | .equals o w v => Names c w o ∧ Takes o v
  | .joined o w v => Names c w o ∧ w.length = 2 ∧ Takes o v ∧ v ≠ [] ∧ v.head? ≠ some '='
  | .alone o w => Names c w o ∧ o.action = .collect
  | .several o w vs => Names c w o ∧ o.action = .many ∧ ∀ v ∈ vs, Plain c v

/-- It would take one more word. -/
def Item.Open : Item → Prop
  | .alone _ _ => True
  | .several _ _ _ => True
  | _ => False

/-- The parameter it is for. -/
def Item.param : Item → Str
  | .input _ => s%"input_name"
  | .on o _ => o.dest
  | .next o _ _ => o.dest
  | .equals o _ _ => o.dest
  | .joined o _ _ => o.dest
  | .alone o _ => o.dest
  | .several o _ _ => o.dest

/-- A text as value of an option: an integer for `--truncation-length`, a list for `--rollup` (see `passed`) and `--xml-schema`. -/
def textValue (o : Opt) (v : Str) : CVal :=
  match o.action with
  | .number => .int ((Py.int? v).getD 0)
  | .collect => .rollup [some v]
  | .many => .strs [v]
  | _ => .str v

/-- What it gives. -/
def Item.value : Item → CVal
  | .input n => .str n
  | .on _ _ => .bool true
  | .next o _ v => textValue o v
  | .equals o _ v => textValue o v
  | .joined o _ v => textValue o v
  | .alone _ _ => .rollup [none]
  | .several _ _ vs => .strs vs

/-- The value passed for the parameter `p`, which is `d` by default: of several that are given the last one; but `--rollup` collects all. -/
def passed (items : List Item) (p : Str) (d : CVal) : CVal :=
  let given := (items.filter (fun i => i.param = p)).map Item.value
  match given.getLast? with
  | none => d
  | some (.rollup _) => .rollup (given.flatMap (fun v => match v with | .rollup l => l | _ => []))
  | some v => v

/-- The defaults are those of the function, except that the command line has its own XML comment. -/
def defaultOf (c : Command) (p : Str) (d : CVal) : CVal :=
  if c.name = s%"unflatten" ∧ p = s%"xml_comment" then .str s%"XML generated by flatten-tool" else d

/-- A complete command line: everything fits; an input does not come directly after something that would take it; there is one input (none for
`create-template`); what is required is given. -/
structure Complete (c : Command) (items : List Item) : Prop where
  fits : ∀ i ∈ items, i.Fits c
  apart : ∀ a x n b, items = a ++ x :: .input n :: b → ¬ x.Open
  input : (items.filter (fun i => match i with | .input _ => true | _ => false)).length = if c.positional then 1 else 0
  required : ∀ o ∈ c.options, o.required = true → ∃ i ∈ items, i.param = o.dest

end Verif.Spec.CommandLine
