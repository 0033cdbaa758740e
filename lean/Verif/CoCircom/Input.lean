import Verif.CircomVm.Vm
import Verif.Shamir.Shamir
import Verif.Rep3.Share

/-!
# Named inputs: reading, splitting and merging

`/repo/co-circom/co-circom-types/src/lib.rs`.  Maps (`BTreeMap`, `serde_json::Map`) are lists of keys and values with
different keys.  They are iterated in the order of insertion here, and in the order of the keys in the code: this
decides which random values a secret gets, which error is reported first, and nothing else.  The inputs of a circom
circuit are elements of `ZMod p`.
-/

namespace Verif.CoCircom

/-- `serde_json::Value`; numbers, `null` and objects are never accepted and carry no content here. -/
inductive Json where
  | null
  | bool (b : Bool)
  | number
  | str (s : String)
  | arr (l : List Json)
  | object

/-- The readers of numbers, which are not part of the repository: `F::from_str` of the field, and
`BigUint::from_str_radix(_, 16)`. -/
structure Readers (F : Type) where
  dec : List Char → Option F
  hex : List Char → Option Nat

section

variable {p : Nat} (rd : Readers (ZMod p))

/-- The number behind the sign. The reduction before the conversion is kept.
`/repo/co-circom/co-circom-types/src/lib.rs:550-570` -/
def parsePositive : List Char → Option (ZMod p)
  | '0' :: 'x' :: digits => (rd.hex digits).map fun n => ((if n ≥ p then n % p else n : Nat) : ZMod p)
  | s => rd.dec s

/-- The sign. `/repo/co-circom/co-circom-types/src/lib.rs:545-549`, `571-575` -/
def parseSigned : List Char → Option (ZMod p)
  | '-' :: r => (parsePositive rd r).map fun v => -v
  | r => parsePositive rd r

/-- `parse_field`. `/repo/co-circom/co-circom-types/src/lib.rs:535-576` -/
def parseField : Json → Except Err (ZMod p)
  | .str s =>
    match parseSigned rd s.toList with
    | some v => .ok v
    | none => .error (.err "could not parse field element")
  | _ => .error (.err "expected input to be a field element string")

/-- `parse_boolean` of a boolean. `/repo/co-circom/co-circom-types/src/lib.rs:595-600` -/
def ofBool (b : Bool) : ZMod p := if b then 1 else 0

mutual

/-- One element of an array. `/repo/co-circom/co-circom-types/src/lib.rs:582-590` -/
def parseElem : Json → Except Err (List (Option (ZMod p)))
  | .arr l => parseArray l
  | .bool b => .ok [some (ofBool b)]
  | .str s => if s = "?" then .ok [none] else (parseField rd (.str s)).map fun v => [some v]
  | j => (parseField rd j).map fun v => [some v]

/-- `parse_array`: nested arrays are flattened. `/repo/co-circom/co-circom-types/src/lib.rs:578-593` -/
def parseArray : List Json → Except Err (List (Option (ZMod p)))
  | [] => .ok []
  | j :: js => do
    let x ← parseElem j
    let xs ← parseArray js
    .ok (x ++ xs)

end

/-- The name of an element of an array: `format!("{name}[{idx}]")`. -/
def elemName (name : String) (idx : Nat) : String := name ++ "[" ++ toString idx ++ "]"

/-- The elements of an array that are present (`enumerate`, `filter_map`), from index `idx` on.
`/repo/co-circom/co-circom-types/src/lib.rs:402-406` -/
def elemEntries (name : String) : Nat → List (Option (ZMod p)) → List (String × ZMod p)
  | _, [] => []
  | idx, some v :: l => (elemName name idx, v) :: elemEntries name (idx + 1) l
  | idx, none :: l => elemEntries name (idx + 1) l

/-- The named values of one entry of the JSON input. `/repo/co-circom/co-circom-types/src/lib.rs:401-411`, `444-454` -/
def parseEntry (name : String) : Json → Except Err (List (String × ZMod p))
  | .arr l => (parseArray rd l).map (elemEntries name 0)
  | .bool b => .ok [(name, ofBool b)]
  | j => (parseField rd j).map fun v => [(name, v)]

end

/-! ## Maps -/

section

variable {A : Type}

/-- `BTreeMap::insert` -/
def insertKey (k : String) (a : A) : List (String × A) → List (String × A)
  | [] => [(k, a)]
  | (k', a') :: l => if k' = k then (k, a) :: l else (k', a') :: insertKey k a l

/-- `BTreeMap::get` -/
def getKey (k : String) : List (String × A) → Option A
  | [] => none
  | (k', a) :: l => if k' = k then some a else getKey k l

end

/-! ## Splitting -/

/-- `Rep3InputType` and `ShamirInputType`. `/repo/co-circom/co-circom-types/src/lib.rs:38-59`, `95-116` -/
inductive InputVal (F A : Type) where
  | pub (v : F)
  | shared (s : A)
  deriving DecidableEq

section

variable {ι A R : Type} {p : Nat} (rd : Readers (ZMod p)) (share : ZMod p → R → (ι → A) × R) (pub : List String)

/-- The values of one entry go into the maps of all parties; `isPub`: the name of the entry is public. `share` is
`rep3::share_field_element` or `shamir::share_field_element`.
`/repo/co-circom/co-circom-types/src/lib.rs:413-426`, `456-469` -/
def insertAll (isPub : Bool) : List (String × ZMod p) → (ι → List (String × InputVal (ZMod p) A)) → R →
    (ι → List (String × InputVal (ZMod p) A)) × R
  | [], s, rng => (s, rng)
  | (k, v) :: l, s, rng =>
    if isPub then insertAll isPub l (fun i => insertKey k (.pub v) (s i)) rng
    else
      let (x, rng) := share v rng
      insertAll isPub l (fun i => insertKey k (.shared (x i)) (s i)) rng

/-- The loop of `split_input` and `split_input_shamir`. `/repo/co-circom/co-circom-types/src/lib.rs:400-427`, `443-470` -/
def splitLoop : List (String × Json) → (ι → List (String × InputVal (ZMod p) A)) → R →
    Except Err (ι → List (String × InputVal (ZMod p) A))
  | [], s, _ => .ok s
  | (name, val) :: l, s, rng => do
    let vals ← parseEntry rd name val
    let (s, rng) := insertAll share (pub.contains name) vals s rng
    splitLoop l s rng

end

/-- `/repo/co-circom/co-circom-types/src/lib.rs:20-21` -/
abbrev Rep3SharedInput (p : Nat) := List (String × InputVal (ZMod p) (Share (ZMod p)))

/-- `/repo/co-circom/co-circom-types/src/lib.rs:23-24` -/
abbrev ShamirSharedInput (p : Nat) := List (String × InputVal (ZMod p) (ZMod p))

/-- `split_input`; `rng` is `thread_rng()`. `/repo/co-circom/co-circom-types/src/lib.rs:388-429` -/
def splitInput {R : Type} {p : Nat} [Sample R (ZMod p)] (rd : Readers (ZMod p)) (pub : List String)
    (input : List (String × Json)) (rng : R) :
    Except Err (PartyID → Rep3SharedInput p) :=
  splitLoop rd Rep3.shareElement pub input (fun _ => []) rng

/-- `split_input_shamir` for `n` parties. `/repo/co-circom/co-circom-types/src/lib.rs:432-472` -/
def splitInputShamir {R : Type} {p : Nat} [Fact p.Prime] [Sample R (ZMod p)] (rd : Readers (ZMod p)) (pub : List String)
    (threshold n : Nat) (input : List (String × Json)) (rng : R) :
    Except Err (Fin n → ShamirSharedInput p) :=
  splitLoop rd (fun v rng =>
    let r := Shamir.share (ZMod p) v n threshold rng
    (fun i : Fin n => r.1.getD i 0, r.2)) pub input (fun _ => []) rng

/-! ## Merging -/

/-- `name.split('[').next()`. `/repo/co-circom/co-circom-types/src/lib.rs:483` -/
def origName (name : String) : String := String.ofList (name.toList.takeWhile (· ≠ '['))

section

variable {F A : Type} [DecidableEq F] [DecidableEq A] (pub : List String)

/-- One entry. `/repo/co-circom/co-circom-types/src/lib.rs:481-492` -/
def mergeEntry (result : List (String × InputVal F A)) (e : String × InputVal F A) :
    Except Err (List (String × InputVal F A)) :=
  if pub.contains (origName e.1) then
    if (getKey e.1 result).any (fun v => decide (v ≠ e.2)) then .error (.err "Public entry not the same in all inputs")
    else .ok (insertKey e.1 e.2 result)
  else if (getKey e.1 result).isSome then .error (.err "Duplicate entry found in input shares")
  else .ok (insertKey e.1 e.2 result)

/-- `merge_input_shares`. `/repo/co-circom/co-circom-types/src/lib.rs:475-495` -/
def mergeInputShares (inputs : List (List (String × InputVal F A))) : Except Err (List (String × InputVal F A)) :=
  inputs.flatten.foldlM (mergeEntry pub) []

end

/-! ## Witness generation -/

/-- `Rep3VmType::from` and `ShamirVmType::from`. `/repo/co-circom/circom-mpc-vm/src/mpc/rep3.rs:56-63` -/
def InputVal.toVm {F A : Type} : InputVal F A → CircomVm.VmVal F A
  | .pub v => .pub v
  | .shared s => .arith s

/-- The number of public entries. `/repo/co-circom/co-circom/src/lib.rs:151-154` -/
def countPublic {F A : Type} (input : List (String × InputVal F A)) : Nat :=
  (input.filter fun e => match e.2 with | .pub _ => true | .shared _ => false).length

/-- `generate_witness_rep3` and `generate_witness_shamir` after the VM has been set up.
`/repo/co-circom/co-circom/src/lib.rs:151-166`, `182-196` -/
def generateWitness {m : Type → Type} {P A : Type} [Monad m] (D : CircomVm.Driver m (CircomVm.VmVal P A) P A)
    (prog : CircomVm.Program) (ctx : CircomVm.Ctx P) (config : List Bool) (fuel : Nat)
    (input : List (String × InputVal P A)) : m (List P × List A) :=
  CircomVm.run D prog ctx config fuel (input.map (Prod.map id InputVal.toVm)) (countPublic input)

end Verif.CoCircom
