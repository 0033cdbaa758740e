import Lean.Util.CollectAxioms
import Lean.Elab.Command
import Verif.Props.Sharing
import Verif.Props.Arith
import Verif.Props.Rng
import Verif.Props.Net
import Verif.Props.Program
import Verif.Props.Binary
import Verif.Props.Conversion
import Verif.Props.Ring
import Verif.Props.Shamir
import Verif.Props.Point
import Verif.Props.Curve
import Verif.Props.Lut
import Verif.Props.Sort
import Verif.Props.Yao
import Verif.Props.SortNet
import Verif.Props.YaoConv
import Verif.Props.YaoOps
import Verif.Props.Poseidon2
import Verif.Props.Merkle
import Verif.Props.Groth16
import Verif.Props.CircomVm
import Verif.Props.Vm
import Verif.Props.VmSource
import Verif.Props.VmMeaning
import Verif.Props.VmAccel
import Verif.Props.Input
import Verif.Props.Witness
import Verif.Props.Acvm
import Verif.Props.Plonk
import Verif.Props.PlonkMpc
import Verif.Props.PlonkSound
import Verif.Props.Honk
import Verif.Props.HonkLookup
import Verif.Props.HonkOink
import Verif.Props.HonkWhole
import Verif.Props.HonkCo
import Verif.Props.HonkBuild
import Verif.Props.HonkBuildSame
import Verif.Props.HonkBuildHonest
import Verif.Props.HonkCoSumcheck
import Verif.Props.HonkShplemini
import Verif.Props.HonkCoShplemini
import Verif.Props.HonkEnd
import Verif.Props.HonkFull
import Verif.Props.HonkCoEnd
import Verif.Props.HonkSound
import Verif.Props.HonkArgument
import Verif.Props.HonkOpening

/-!
# Axioms used by the property theorems

The command below fails the build if a property theorem (`Verif.Props.*`) depends on an axiom other than
`propext`, `Classical.choice` and `Quot.sound`, in particular on `sorryAx` or on `Lean.ofReduceBool`.
-/

open Lean Elab Command in
run_cmd do
  let env ← getEnv
  let mut n := 0
  for (name, info) in env.constants.map₁.toList do
    if (`Verif.Props).isPrefixOf name && info matches .thmInfo _ then
      n := n + 1
      for ax in ← collectAxioms name do
        unless ax ∈ [``propext, ``Classical.choice, ``Quot.sound] do
          throwError "{name} depends on {ax}"
  logInfo m!"{n} theorems use no axioms beyond propext, Classical.choice, Quot.sound"
