import Verif.Model.CmdLine
import Mathlib.Data.Nat.Digits.Defs

/-!
# How a command line is written, and what it asks for (specification for C80)

Independent of the scanning in the model: a command line is put together from items, a number from blanks, sign and digits.
-/
namespace MVMC.Spec
open MVMC

/-- the options without argument -/
def PlainOpt (c : Char) : Prop := c = 'b' ∨ c = 'h' ∨ c = 'o' ∨ c = 'e' ∨ c = 's' ∨ c = 'v'
/-- the options with an argument -/
def ArgOpt (c : Char) : Prop := c = 'm' ∨ c = 'F'

/-- one item of a command line: `-bo`, `-bm3`, `-bm 3`, or an operand -/
inductive Item where
  | flags (fs : List Char)
  | attached (fs : List Char) (c : Char) (a : List Char)
  | separate (fs : List Char) (c : Char) (a : List Char)
  | operand (w : List Char)

/-- the item is written according to the rules -/
def Item.ok : Item → Prop
  | .flags fs => fs ≠ [] ∧ ∀ c ∈ fs, PlainOpt c
  | .attached fs c a => (∀ c ∈ fs, PlainOpt c) ∧ ArgOpt c ∧ a ≠ []
  | .separate fs c _ => (∀ c ∈ fs, PlainOpt c) ∧ ArgOpt c
  | .operand w => w = ['-'] ∨ w.head? ≠ some '-'

/-- its words -/
def Item.words : Item → List (List Char)
  | .flags fs => ['-' :: fs]
  | .attached fs c a => ['-' :: (fs ++ c :: a)]
  | .separate fs c a => ['-' :: (fs ++ [c]), a]
  | .operand w => [w]

/-- its options -/
def Item.options : Item → List OptEv
  | .flags fs => fs.map .flag
  | .attached fs c a => fs.map .flag ++ [.arg c a]
  | .separate fs c a => fs.map .flag ++ [.arg c a]
  | .operand _ => []

/-- its operands -/
def Item.operands : Item → List (List Char)
  | .operand w => [w]
  | _ => []

/-- the end of a command line: nothing, or `--` and any words -/
def tailWords : Option (List (List Char)) → List (List Char)
  | none => []
  | some ws => ['-', '-'] :: ws

/-- `words` asks for `opts` (in this order) with the operands `ops` -/
def Asks (words : List (List Char)) (opts : List OptEv) (ops : List (List Char)) : Prop :=
  ∃ (items : List Item) (rest : Option (List (List Char))), (∀ i ∈ items, i.ok) ∧ words = items.flatMap Item.words ++ tailWords rest ∧
    opts = items.flatMap Item.options ∧ ops = items.flatMap Item.operands ++ rest.getD []

/-- a blank -/
def Blank (c : Char) : Prop := c = ' ' ∨ c = '\t' ∨ c = '\n' ∨ c = '\x0b' ∨ c = '\x0c' ∨ c = '\r'

/-- value of a digit -/
def Digit (c : Char) (d : Nat) : Prop := d < 10 ∧ c = Char.ofNat ('0'.toNat + d)

/-- `s` begins with the number `v`, `rest` follows -/
def BeginsWith (s : List Char) (v : Int) (rest : List Char) : Prop :=
  ∃ (bl sg : List Char) (ds : List Nat), (∀ c ∈ bl, Blank c) ∧ (sg = [] ∨ sg = ['+'] ∨ sg = ['-']) ∧ ds ≠ [] ∧ (∀ d ∈ ds, d < 10) ∧
    s = bl ++ sg ++ ds.map (fun d => Char.ofNat ('0'.toNat + d)) ++ rest ∧ (∀ c, rest.head? = some c → ∀ d < 10, c ≠ Char.ofNat ('0'.toNat + d)) ∧
    v = (if sg = ['-'] then -1 else 1) * (Nat.ofDigits 10 ds.reverse : Int)

/-- the value of an `int` -/
def FitsInt (v : Int) : Prop := -2 ^ 31 ≤ v ∧ v < 2 ^ 31

/-- the argument of a numerical option is acceptable with value `v` -/
def NumOK (a : List Char) (v : Int) : Prop := (∃ rest, BeginsWith a v rest) ∧ FitsInt v

/-- an option that ends the program: its status -/
inductive Ends : OptEv → Int → Prop
  | help : Ends (.flag 'h') 0
  | version : Ends (.flag 'v') 0
  | number {c a} : ArgOpt c → (∀ v, ¬ NumOK a v) → Ends (.arg c a) 1
  | flush {a v} : NumOK a v → v < 1 → Ends (.arg 'F' a) 1

/-- the last of the options on mode: `some n` for `-m n`, `none` for `-e`, `-s` or if there is none -/
inductive LastMode : List OptEv → Option Int → Prop
  | none {l} : (∀ e ∈ l, e ≠ .flag 'e' ∧ e ≠ .flag 's' ∧ ∀ a, e ≠ .arg 'm' a) → LastMode l none
  | single {l r e} : (e = .flag 'e' ∨ e = .flag 's') → (∀ e ∈ r, e ≠ .flag 'e' ∧ e ≠ .flag 's' ∧ ∀ a, e ≠ .arg 'm' a) → LastMode (l ++ e :: r) none
  | multi {l r a n} : NumOK a n → (∀ e ∈ r, e ≠ .flag 'e' ∧ e ≠ .flag 's' ∧ ∀ a, e ≠ .arg 'm' a) → LastMode (l ++ .arg 'm' a :: r) (some n)

/-- the interval of the last `-F`, 1 if there is none -/
inductive LastFlush : List OptEv → Int → Prop
  | none {l} : (∀ e ∈ l, ∀ a, e ≠ .arg 'F' a) → LastFlush l 1
  | last {l r a n} : NumOK a n → (∀ e ∈ r, ∀ a, e ≠ .arg 'F' a) → LastFlush (l ++ .arg 'F' a :: r) n

end MVMC.Spec
