import Verif.CoCircom.Input

/-!
# Specification: what a JSON input means

Read this file to understand the statements about splitting and merging inputs.
-/

namespace Verif.Spec.Input

open CoCircom (Json Readers InputVal)

variable {p : Nat} (rd : Readers (ZMod p)) (pub : List String)

/-- A number without sign: hexadecimal digits behind `0x`, or what the field reads. -/
inductive Magnitude : List Char → ZMod p → Prop
  | hex {digits : List Char} {n : Nat} : rd.hex digits = some n → Magnitude ('0' :: 'x' :: digits) (n : ZMod p)
  | dec {s : List Char} {v : ZMod p} : (∀ digits, s ≠ '0' :: 'x' :: digits) → rd.dec s = some v → Magnitude s v

/-- A single value: a boolean, or a string with a number, perhaps behind a minus sign. -/
inductive Scalar : Json → ZMod p → Prop
  | true : Scalar (.bool true) 1
  | false : Scalar (.bool false) 0
  | pos {s : String} {v : ZMod p} : (∀ r, s.toList ≠ '-' :: r) → Magnitude rd s.toList v → Scalar (.str s) v
  | neg {s : String} {r : List Char} {v : ZMod p} : s.toList = '-' :: r → Magnitude rd r v → Scalar (.str s) (-v)

/-- The elements of an array, from left to right, those of nested arrays in their place; `"?"` is an element that someone
else provides. -/
inductive Leaves : List Json → List (Option (ZMod p)) → Prop
  | nil : Leaves [] []
  | nested {l js : List Json} {x xs : List (Option (ZMod p))} : Leaves l x → Leaves js xs → Leaves (.arr l :: js) (x ++ xs)
  | absent {js : List Json} {xs : List (Option (ZMod p))} : Leaves js xs → Leaves (.str "?" :: js) (none :: xs)
  | value {j : Json} {v : ZMod p} {js : List Json} {xs : List (Option (ZMod p))} :
      j ≠ .str "?" → Scalar rd j v → Leaves js xs → Leaves (j :: js) (some v :: xs)

/-- The entry `name: j` of an input gives the value `v` to the signal `k`. -/
inductive Entry (name : String) : Json → String → ZMod p → Prop
  | scalar {j : Json} {v : ZMod p} : Scalar rd j v → Entry name j name v
  | elem {l : List Json} {xs : List (Option (ZMod p))} {idx : Nat} {v : ZMod p} :
      Leaves rd l xs → xs[idx]? = some (some v) → Entry name (.arr l) (name ++ "[" ++ toString idx ++ "]") v

/-- The entry can be read. -/
def Readable (j : Json) : Prop := (∃ v, Scalar rd j v) ∨ ∃ l xs, j = .arr l ∧ Leaves rd l xs

/-- The input gives the signal `k` the value in `a`, which says if it is public; `pub` are the names of the public
inputs. -/
inductive Gives (input : List (String × Json)) (k : String) : InputVal (ZMod p) (ZMod p) → Prop
  | pub {name : String} {j : Json} {v : ZMod p} :
      (name, j) ∈ input → Entry rd name j k v → name ∈ pub → Gives input k (.pub v)
  | secret {name : String} {j : Json} {v : ZMod p} :
      (name, j) ∈ input → Entry rd name j k v → name ∉ pub → Gives input k (.shared v)

/-- The names of the entries are different, as the keys of a JSON object are, and have no `[` in them, as the names of
circom signals. -/
def GoodNames (input : List (String × Json)) : Prop :=
  (input.map Prod.fst).Nodup ∧ ∀ e ∈ input, '[' ∉ e.1.toList

/-- What the parties have (or do not have) for a signal: the public value, or a sharing of the secret value. -/
def Held {ι A : Type} (Sh : (ι → A) → ZMod p → Prop) (x : ι → Option (InputVal (ZMod p) A)) :
    InputVal (ZMod p) (ZMod p) → Prop
  | .pub v => ∀ i, x i = some (.pub v)
  | .shared v => ∃ s, Sh s v ∧ ∀ i, x i = some (.shared (s i))

/-- Two inputs may be merged: a signal to which both of them give a value is public, with the same value. -/
def Agree (u u' : List (String × Json)) : Prop :=
  ∀ k a a', Gives rd pub u k a → Gives rd pub u' k a' → ∃ v, a = .pub v ∧ a' = .pub v

/-- `ins` is the union of what the inputs give. -/
def Union (users : List (List (String × Json))) (ins : List (String × InputVal (ZMod p) (ZMod p))) : Prop :=
  (ins.map Prod.fst).Nodup ∧ ∀ k a, (k, a) ∈ ins ↔ ∃ u ∈ users, Gives rd pub u k a

end Verif.Spec.Input
