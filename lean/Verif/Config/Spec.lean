import Verif.Config.Model

/-! # What the builder of a configuration promises -/

namespace Verif.Config

open Verif.Graph

/-- A 32-bit number that is not zero. -/
def Pos32 (n : Nat) : Prop := 0 < n ∧ n ≤ 4294967295

/-- A 16-bit number that is not zero. -/
def Pos16 (n : Nat) : Prop := 0 < n ∧ n ≤ 65535

/-- What a maximum degree stands for: `slack` is at least one and the product is cut off. -/
def MaxIs (pruned : Nat) : MaxDegree → Nat → Prop
  | .value n, m => m = n
  | .slack s, m => ∃ q, s = some q ∧ 1 ≤ q ∧ m = toUsize (scaled q pruned)
  | .same, m => m = pruned

/-- What a number of back-edges stands for: the ratio is in `(0, 1]` and the product is rounded up; all neighbours if
nothing was said. -/
def BackIs (pruned : Nat) : Option Backedges → Nat → Prop
  | some (.ratio r), m => ∃ q, r = some q ∧ 0 < q ∧ q ≤ 1 ∧ m = toUsize ⌈scaled q pruned⌉
  | some (.amount n), m => m = n
  | none, m => m = pruned

/-- The configuration `c` is what the settings `b` say. -/
structure Says (b : Builder) (c : Cfg) : Prop where
  pruned : c.prunedDegree = b.prunedDegree
  max : MaxIs b.prunedDegree b.maxDegree c.maxDegree
  back : BackIs b.prunedDegree b.backedges c.maxBackedges
  lBuild : c.lBuild = b.lBuild
  alpha : c.alpha = b.alpha.getD (some defaultAlpha)
  kind : c.kind = b.kind
  occlusion : c.maxOcclusion = b.maxOcclusion.getD 750
  minibatch : c.minibatch = b.minibatch.getD 1
  intra : c.intra = b.intra.getD .all
  saturate : c.saturate = b.saturate.getD false
  retry : c.retry = b.retry

/-- The bounds every configuration keeps. -/
structure Valid (c : Cfg) : Prop where
  pruned : Pos32 c.prunedDegree
  max : Pos32 c.maxDegree
  le : c.prunedDegree ≤ c.maxDegree
  lBuild : Pos32 c.lBuild
  occlusion : Pos16 c.maxOcclusion
  back : Pos32 c.maxBackedges
  backLe : c.maxBackedges ≤ c.prunedDegree
  minibatch : Pos32 c.minibatch

end Verif.Config
