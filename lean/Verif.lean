import Verif.Model.FinderImpl
import Verif.Lemmas.Loops
import Verif.Props.Compartments
import Verif.Model.Interaction
import Verif.Model.Entropy
import Verif.Model.Ensemble
import Verif.Props.Instances
import Verif.Props.Iteration
import Verif.Props.Constraint
import Verif.Props.Interaction
import Verif.Props.FreeEnergy
import Verif.Props.GibbsDuhem
import Verif.Props.Stability
import Verif.Props.Phases
import Verif.Props.Run
import Verif.Props.RunMean
import Verif.Props.Relabel
import Verif.Props.Equilibrium
import Verif.Props.Extended
import Verif.Props.Finder
import Verif.Props.FinderHistory
import Verif.Props.Shortcut
import Verif.Props.Alias
import Verif.Props.Scheme
import Verif.Props.Miscible
import Verif.Props.Multiplier
import Verif.Props.Uniform
import Verif.Props.Workflow
import Verif.Props.Setters
import Verif.Props.Independence
import Verif.Props.NearBalance
import Verif.Props.Critical
import Verif.Props.GroundState
import Verif.Props.Initial
import Verif.Props.Defaults
import Verif.Props.Simplex
import Verif.Props.Ensembles
import Verif.Props.Clustering
import Verif.Props.Norm
import Verif.Props.Merge
import Verif.Props.Rounded
import Verif.Props.Floats
import Verif.Props.FloatRounding
import Verif.Props.FloatBalance
import Verif.Props.Convex
import Verif.Props.MeanLoss
import Verif.Props.Exchange
import Verif.Props.Distribution
import Verif.Props.Split
import Verif.Props.Separated
import Verif.Props.Selection
import Verif.Props.Constrained
import Verif.Props.Chance
import Verif.Props.Weak
import Verif.Props.Units
import Verif.Props.Symmetric
import Verif.Props.Scan
import Verif.Props.Overshoot
import Verif.Props.Damping
import Verif.Props.Restart
import Verif.Props.Transcript
import Verif.Props.TranscriptFinder
import Verif.Props.TranscriptEnergy
import Verif.Props.TranscriptObjects
import Verif.Props.TranscriptPhases
import Verif.Props.FinderObject
import Verif.Props.Layout
import Verif.Props.Compile
import Verif.Props.ShortcutObject
import Verif.Props.WorkflowObject
import Verif.Props.UserConstraint
import Verif.Props.UserInteraction
import Verif.Props.TextChance
import Verif.Props.OpenChance
import Verif.Props.TextWeak
import Verif.Props.TextScan
import Verif.Props.PolyObject
import Verif.Props.ConsObject
import Verif.Props.PolyConsObject
