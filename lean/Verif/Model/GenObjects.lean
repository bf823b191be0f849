import Verif.Model.Objects
import Verif.Gen.LinearLocal
import Verif.Gen.LinearGlobal
import Verif.Gen.NoConstraint
import Verif.Gen.FloryHuggins
import Verif.Gen.IdealGas
import Verif.Gen.Polydispersed
import Verif.Gen.Canonical
import Verif.Gen.GrandCanonical
import Verif.Gen.FinderImpl

/-!
# Compiled objects with transcribed methods

The loop of `Verif/Gen/FinderImpl.lean` calls methods of an interaction, an entropy, an ensemble and
constraints.  Here these are the transcribed methods of the classes in `Verif/Gen/`.
-/

namespace Flory.Gen

section
variable {K : Type} [Field K] [LinearOrder K] {A S M C : ℕ} [NeZero M]

/-- `FloryHugginsInteractionCompiled` (`flory/interaction/flory_huggins.py:18-71`) with its
transcribed methods. -/
def FHCompiled.obj (c : FHCompiled S K) (M : ℕ) : InteractionI S M K where
  potential := FHCompiled.potential c
  volumeDerivative := FHCompiled.volume_derivative c
  incompCoef := FHCompiled.incomp_coef c

/-- `CanonicalEnsembleCompiled` (`flory/ensemble/canonical.py:17-66`) with its transcribed method. -/
def CanonicalC.obj (e : CanonicalC C K) (M : ℕ) : EnsembleI C M K where
  normalize p Q m := (CanonicalC.normalize e p Q m).map Prod.swap

/-- `GrandCanonicalEnsembleCompiled` (`flory/ensemble/grandcanonical.py:17-64`) with its transcribed
method. -/
def GrandC.obj (e : GrandC C K) (M : ℕ) : EnsembleI C M K where
  normalize p Q m := .ok (GrandC.normalize e p Q m).swap
end

section
variable {C S : ℕ}

/-- `IdealGasEntropyCompiled` (`flory/entropy/ideal_gas.py:18-82`) with its transcribed methods. -/
noncomputable def IdealC.obj (e : IdealC C) (M : ℕ) : EntropyI C C M ℝ where
  partition p o J := (IdealC.partition e p o J).map Prod.swap
  compToFeat f p := .ok (IdealC.comp_to_feat e f p)
  volumeDerivative := IdealC.volume_derivative e

/-- `IdealGasPolydispersedEntropyCompiled` (`flory/entropy/ideal_gas_polydispersed.py:19-98`) with
its transcribed methods. -/
noncomputable def PolyC.obj (e : PolyC C S) (M : ℕ) : EntropyI C S M ℝ where
  partition p o J := (PolyC.partition e p o J).map Prod.swap
  compToFeat := PolyC.comp_to_feat e
  volumeDerivative := PolyC.volume_derivative e
end

/-- A compiled entropy with transcribed methods (`flory/entropy/ideal_gas.py:18-82`,
`flory/entropy/ideal_gas_polydispersed.py:19-98`). -/
noncomputable def entropyObj {C S : ℕ} (M : ℕ) : EntropyInst C S → EntropyI C S M ℝ
  | .ideal e => IdealC.obj e M
  | .poly e => PolyC.obj e M

/-- A compiled ensemble with transcribed methods (`flory/ensemble/canonical.py:17-66`,
`flory/ensemble/grandcanonical.py:17-64`). -/
noncomputable def ensembleObj {C : ℕ} (M : ℕ) : EnsembleInst C → EnsembleI C M ℝ
  | .canonical e => CanonicalC.obj e M
  | .grand e => GrandC.obj e M

/-- The six numbers that a metastep returns (`flory/mcmp/_finder_impl.py:419-426`) followed by
everything it changes in place: fields, volumes, fractions, constraints and generator. -/
abbrev StepResult (C S M : ℕ) (K G : Type) : Type :=
  (K × K × K × K × ℤ × Bool) × Mat S M K × Vec M K × Mat C M K × Mat S M K × List (Cons S M K) × G

/-- The call of the transcribed loop in `run` (`flory/mcmp/finder.py:587-611`), with the arrays and
the parameters of the finder as records. -/
def callMetastep {K G : Type} [Field K] [LinearOrder K] [FloorRing K] {C S M : ℕ} [NeZero M]
    (interaction : InteractionI S M K) (entropy : EntropyI C S M K) (ensemble : EnsembleI C M K)
    (rng : Rng G K) (p : Params K) (reviveTries stepsInner : ℤ) (s : State C S M K G) :
    Py (StepResult C S M K G) :=
  multicomponent_self_consistent_metastep interaction entropy ensemble s.cons s.omegas s.Js
    s.phisComp s.phisFeat stepsInner p.acceptanceJs p.JsStepUpperBound p.acceptanceOmega
    p.killThreshold reviveTries p.reviveScaler rng s.g

end Flory.Gen
