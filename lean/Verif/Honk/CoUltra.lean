import Verif.Honk.Ultra
import Verif.Honk.ShpleminiDrivers
import Verif.Honk.CoSumcheck

/-!
# The whole collaborative prover of UltraHonk

Models `/repo/co-noir/co-ultrahonk/src/co_ultra_prover.rs` and the order of the rounds in `co_oink/co_oink_prover.rs`, without zero
knowledge and for circuits without memory records.  Every party has the public columns `q` and shares `e` of the other columns.
-/

namespace Verif.Honk

variable {m : Type → Type} [Monad m] {F A G B : Type} [Field F] [DecidableEq F] [Zero A] [Add A] [Sub A] [Neg A] [SMul F A] [AddCommGroup G]
  [Module F G]

/-- What the Oink prover leaves for the rest: challenges, commitments and all shared columns.
`/repo/co-noir/co-ultrahonk/src/co_oink/types.rs:7-14`, `/repo/co-noir/co-ultrahonk/src/co_decider/types.rs:15-21` -/
structure OinkMemory (F A G : Type) where
  η : F
  βγ : F × F
  δ : F
  wl : G
  wr : G
  wo : G
  counts : G
  tags : G
  w4 : G
  inverses : G
  zPerm : G
  columns : Col → Nat → A

/-- All points that the Oink prover sends, in order.  `/repo/co-noir/co-ultrahonk/src/co_oink/co_oink_prover.rs:547-725` -/
def OinkMemory.points (o : OinkMemory F A G) : List G := [o.wl, o.wr, o.wo, o.counts, o.tags, o.w4, o.inverses, o.zPerm]

/-- Commit to three columns and open the commitments.
`/repo/co-noir/co-ultrahonk/src/co_oink/co_oink_prover.rs:565-572, 631-651` -/
def commitThree (d : PcsDriver m F A G B) (crs : List G) (n : Nat) (a b c : Nat → A) : m (G × G × G) := do
  let a ← d.commit crs ((List.range n).map a)
  let b ← d.commit crs ((List.range n).map b)
  let c ← d.commit crs ((List.range n).map c)
  let l ← d.openPoints [a, b, c]
  match l with
  | [a, b, c] => pure (a, b, c)
  | _ => d.fail (.panic "index out of bounds")

/-- Commit to two columns and open the commitments.
`/repo/co-noir/co-ultrahonk/src/co_oink/co_oink_prover.rs:711-718` -/
def commitTwo (d : PcsDriver m F A G B) (crs : List G) (n : Nat) (a b : Nat → A) : m (G × G) := do
  let a ← d.commit crs ((List.range n).map a)
  let b ← d.commit crs ((List.range n).map b)
  let l ← d.openPoints [a, b]
  match l with
  | [a, b] => pure (a, b)
  | _ => d.fail (.panic "index out of bounds")

/-- The shared columns with those that the Oink prover has computed, and their shifts.
`/repo/co-noir/co-ultrahonk/src/co_decider/types.rs:35-98` -/
def coComplete (n : Nat) (w4 zPerm inverses : Nat → A) (e : Col → Nat → A) : Col → Nat → A
  | .w4 => w4
  | .w4Shift => fun i => if i + 1 < n then w4 (i + 1) else 0
  | .zPerm => zPerm
  | .zPermShift => fun i => if i + 1 < n then zPerm (i + 1) else 0
  | .lookupInverses => inverses
  | c => e c

/-- The shifts of the first three wires, which the parties take from the wires themselves.
`/repo/co-noir/co-ultrahonk/src/co_oink/co_oink_prover.rs:178-180`, `/repo/co-noir/co-ultrahonk/src/co_decider/types.rs:66-80` -/
def withShifts (n : Nat) (e : Col → Nat → A) : Col → Nat → A
  | .wlShift => fun i => if i + 1 < n then e .wl (i + 1) else 0
  | .wrShift => fun i => if i + 1 < n then e .wr (i + 1) else 0
  | .woShift => fun i => if i + 1 < n then e .wo (i + 1) else 0
  | c => e c

/-- `CoOink::prove`.  Only the public parts of the key are used.
`/repo/co-noir/co-ultrahonk/src/co_oink/co_oink_prover.rs:295-341, 509-754` -/
def coOink (dc : CoDriver m F A) (dp : PcsDriver m F A G B) (ch : UltraChallenges F G) (crs : List G) (vk : UltraVk G) (key : Key F)
    (q : Col → Nat → F) (e : Col → Nat → A) : m (OinkMemory F A G) := do
  let pub := key.publicInputs
  let a ← commitThree dp crs key.size (e .wl) (e .wr) (e .wo)
  let η := ch.eta vk pub [a.1, a.2.1, a.2.2]
  let w4 ← dc.lift (dc.w4 ⟨η, η * η, η * η * η⟩ key.size [] [] [] ![e .wl, e .wr, e .wo, e .w4])
  let b ← commitThree dp crs key.size (e .lookupReadCounts) (e .lookupReadTags) w4
  let βγ := ch.betaGamma vk pub [a.1, a.2.1, a.2.2, b.1, b.2.1, b.2.2]
  let inv ← dc.lookupInverses βγ.1 βγ.2 key.size q e
  let δ ← dc.lift (publicInputDelta βγ.1 βγ.2 pub key.publicOffset)
  let z ← dc.grandProduct key ![e .wl, e .wr, e .wo, w4] βγ.1 βγ.2
  let c ← commitTwo dp crs key.size (fun i => inv.getD i 0) z
  pure ⟨η, βγ, δ, a.1, a.2.1, a.2.2, b.1, b.2.1, b.2.2, c.1, c.2, coComplete key.size w4 z (fun i => inv.getD i 0) e⟩

/-- `CoUltraHonk::prove_inner`, with the split of the public inputs that `prove` does.
`/repo/co-noir/co-ultrahonk/src/co_ultra_prover.rs:59-93, 105-118` -/
def coUltraProve (dc : CoDriver m F A) (ds : SumDriver m F A) (dp : PcsDriver m F A G B) (ch : UltraChallenges F G) (padding : Bool)
    (consts : Params F) (crs : List G) (vk : UltraVk G) (key : Key F) (q : Col → Nat → F) (e : Col → Nat → A) :
    m (UltraProof F G × List F) := do
  let pub := key.publicInputs
  let o ← coOink dc dp ch crs vk key q (withShifts key.size e)
  let d := Nat.log2 key.size
  let D := virtualLogN padding d
  let s ← coDecide ds dp (ultraParams consts o.η o.βγ.1 o.βγ.2 o.δ) (alphaPowers (ch.alpha vk pub o.points))
    (gateChallenges (ch.gate vk pub o.points) D) (ch.sumcheck vk pub o.points) (ch.opening vk pub o.points) crs d D (columns key.size q)
    fun c => (List.range key.size).map (o.columns c)
  let num := pub.length - 8
  pure (⟨pub.drop num, o.wl, o.wr, o.wo, o.counts, o.tags, o.w4, o.inverses, o.zPerm, s.1, s.2⟩, pub.take num)

end Verif.Honk
