import Verif.Yao.Circuits

/-!
# Batcher's odd-even merge sort

Model of `/repo/mpc-core/src/protocols/rep3/yao/circuits.rs:1154-1251`.
-/

namespace Verif.Yao

/-- `while p < len { ..; p <<= 1 }`, `/repo/mpc-core/src/protocols/rep3/yao/circuits.rs:1167-1203`: the
values of `p` from `p` on.  The first argument bounds the number of rounds; `len` is always enough. -/
def phases (len : Nat) : Nat → Nat → List Nat
  | 0, _ => []
  | fuel + 1, p => if p < len then p :: phases len fuel (2 * p) else []

/-- `while k >= 1 { ..; k >>= 1 }`, `/repo/mpc-core/src/protocols/rep3/yao/circuits.rs:1168-1201`: the
values of `k` from `k` on. -/
def stages : Nat → List Nat
  | 0 => []
  | k + 1 => (k + 1) :: stages ((k + 1) / 2)
decreasing_by omega

/-- `(start..stop).step_by(step)` -/
def stepRange (start stop step : Nat) : List Nat :=
  List.range' start ((stop - start + step - 1) / step) step

/-- The positions compared in one stage, in order:
`/repo/mpc-core/src/protocols/rep3/yao/circuits.rs:1170-1175,1196-1199` -/
def stagePairs (len p k : Nat) : List (Nat × Nat) :=
  (stepRange (k % p) (len - k) (2 * k)).flatMap fun j =>
    (List.range (min k (len - j - k))).flatMap fun i =>
      if (i + j) / (2 * p) = (i + j + k) / (2 * p) then [(i + j, i + j + k)] else []

/-- All positions compared, in order. -/
def sortPairs (len : Nat) : List (Nat × Nat) :=
  (phases len len 1).flatMap fun p => (stages p).flatMap fun k => stagePairs len p k

namespace Circ

variable {I : Type}

/-- `let xor = ..`, `/repo/mpc-core/src/protocols/rep3/yao/circuits.rs:1189-1193` -/
def cmuxBoth (cmp l r : I) : Circ I (I × I) := do
  let xor ← gXor l r
  let and ← gAnd cmp xor
  let l' ← gXor and l
  let r' ← gXor xor l'
  pure (l', r')

/-- One comparison, `/repo/mpc-core/src/protocols/rep3/yao/circuits.rs:1175-1198`.  `clone_from_slice`
panics if a slice has not the length of the first one. -/
def compareExchange (inner : Nat) (inputs : List (List I)) (ab : Nat × Nat) : Circ I (List (List I)) :=
  match inputs[ab.1]?, inputs[ab.2]? with
  | some lhs, some rhs =>
    if lhs.length ≠ inner ∨ rhs.length ≠ inner then fail (.panic "copy_from_slice: length mismatch")
    else do
      let cmp ← unsignedGt lhs rhs
      let lr ← (lhs.zip rhs).mapM fun (lr : I × I) => cmuxBoth cmp lr.1 lr.2
      pure ((inputs.set ab.1 (lr.map Prod.fst)).set ab.2 (lr.map Prod.snd))
  | _, _ => oob

/-- `batcher_odd_even_merge_sort_inner`, `/repo/mpc-core/src/protocols/rep3/yao/circuits.rs:1154-1207`.
The nested loops are a fold over the list of compared positions. -/
def batcherInner (inputs : List (List I)) : Circ I (List (List I)) :=
  match inputs with
  | [] => oob
  | x :: _ => (sortPairs inputs.length).foldlM (compareExchange x.length) inputs

/-- `batcher_odd_even_merge_sort`, `/repo/mpc-core/src/protocols/rep3/yao/circuits.rs:1210-1251`, for the
field of order `p` with `w` bits. -/
def batcherSort (p w : Nat) (wiresA wiresB wiresC : List I) (bitlen : Nat) : Circ I (List I) := do
  let inputs ← ((chunks w wiresA).zip (chunks w wiresB)).mapM
    fun (ab : List I × List I) => adderModPOut p ab.1 ab.2 bitlen
  let inputs ← batcherInner inputs
  let results ← (inputs.zip (chunks w wiresC)).mapM
    fun (xy : List I × List I) => composeFieldElement p w xy.1 xy.2
  pure results.flatten

end Circ

end Verif.Yao
