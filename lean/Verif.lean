import Verif.Core.Props
import Verif.Dataset.Props
import Verif.Memory.PropsPER
import Verif.Serialization.Props
import Verif.Vector.Props
import Verif.Vector.PropsPipes
import Verif.Policy.Props
import Verif.TD.PropsRun
import Verif.TD.PropsTrueOnline
import Verif.ValueFn.Props
import Verif.ValueFn.Sequences
import Verif.Stats.Props
import Verif.Utils.Props
import Verif.Features.Props
import Verif.Features.PropsBasis
import Verif.Approx.Props
import Verif.Approx.PropsCMAC
import Verif.Solvers.PropsDP
import Verif.Solvers.PropsCar
import Verif.Solvers.PropsLQRGrad
import Verif.Finite.PropsMDP
import Verif.Finite.PropsTaxi
import Verif.Envs.Props
import Verif.Envs.PropsPhysics
import Verif.DQN.PropsTarget
import Verif.DQN.PropsProjection
import Verif.DQN.PropsBatch
import Verif.ActorCritic.PropsTRPO
import Verif.ActorCritic.PropsPPO
import Verif.ActorCritic.PropsClassic
import Verif.Search.PropsUnbiased
import Verif.Search.PropsDist
import Verif.Search.PropsDiff
import Verif.Search.PropsCon
import Verif.Search.PropsBB
import Verif.Search.PropsMore
import Verif.Search.PropsVP
import Verif.Misc.PropsLog
import Verif.Misc.PropsObs
import Verif.Misc.PropsInfo
import Verif.Explore.Props
import Verif.Wrap.PropsAtari
import Verif.Wrap.PropsMulti
import Verif.Wrap.PropsGym
import Verif.Wrap.PropsSpaces
import Verif.Vector.PropsSingle
import Verif.Wrap.PropsBullet
import Verif.Approx.PropsFit
import Verif.Search.PropsNormal
import Verif.Search.PropsTorch
import Verif.Features.PropsTensor
import Verif.Search.PropsEppo
import Verif.Serialization.PropsTable
import Verif.Memory.PropsLoad
import Verif.Misc.PropsCallbacks
import Verif.Misc.PropsPlots
import Verif.Hockey.Props
import Verif.Hockey.PropsBullet
import Verif.Approx.PropsRegressor
import Verif.DQN.PropsNoisy
import Verif.Backend.Model
import Verif.Backend.Spec
import Verif.Backend.Props
import Verif.DQN.ModelNets
import Verif.DQN.PropsNets
import Verif.Envs.ModelReset
import Verif.Envs.PropsReset
import Verif.Record.Model
import Verif.Record.Props
import Verif.Vector.ModelIsaac
import Verif.Vector.PropsIsaac
import Verif.Render.Model
import Verif.Render.Spec
import Verif.Render.Props
import Verif.Render.PropsScenes
import Verif.Features.ModelFourier
import Verif.Features.PropsFourier
import Verif.Misc.ModelConsole
import Verif.Misc.PropsConsole
import Verif.Wrap.ModelWrappers
import Verif.Wrap.PropsWrappers
import Verif.System.Model
import Verif.System.Spec
import Verif.System.Lemmas
import Verif.System.Lemmas2
import Verif.System.Props
import Verif.Dataset.ModelObject
import Verif.Dataset.PropsObject
import Verif.Vector.PropsObject
import Verif.Memory.ModelSeq
import Verif.Memory.PropsSeq
import Verif.Hockey.PropsApproach
import Verif.Serialization.ModelLinks
import Verif.Serialization.PropsLinks
import Verif.Policy.ModelVariance
import Verif.Policy.PropsVariance
import Verif.ActorCritic.ModelShapes
import Verif.ActorCritic.LemmasShapes
import Verif.ActorCritic.PropsShapes
import Verif.Stats.ModelGrid
import Verif.Stats.PropsGrid
import Verif.Envs.PropsPuddle
import Verif.Finite.ModelEpisode
import Verif.Finite.PropsEpisode
import Verif.Approx.ModelHeap
import Verif.Approx.PropsHeap
import Verif.ActorCritic.ModelSac
import Verif.ActorCritic.PropsSac
import Verif.Misc.ModelConfig
import Verif.Misc.PropsConfig
import Verif.TD.SpecLive
import Verif.TD.PropsLive
import Verif.System.ModelGridQ
import Verif.System.SpecGridQ
import Verif.System.PropsGridQ
import Verif.TD.PropsWeighted
import Verif.ActorCritic.ModelPPO
import Verif.ActorCritic.PropsProximal
import Verif.Vector.ModelSeed
import Verif.Vector.PropsSeed
import Verif.System.ModelPre
import Verif.System.SpecPre
import Verif.System.PropsPre
import Verif.TD.LemmasAverage
import Verif.TD.LemmasNoise
import Verif.TD.SpecStoch
import Verif.TD.PropsStoch
import Verif.TD.PropsStochRun
import Verif.TD.PropsStochDemo
import Verif.TD.PropsStochMaxmin
import Verif.ActorCritic.PropsDensity
import Verif.ActorCritic.ModelDeterm
import Verif.ActorCritic.PropsDeterm
import Verif.TD.LemmasDouble
import Verif.TD.SpecDouble
import Verif.TD.PropsStochDouble
import Verif.TD.PropsStochDoubleRate
import Verif.TD.PropsStochDoubleDemo
import Verif.TD.ModelDoubleRun
import Verif.TD.PropsStochDoubleRun
import Verif.Explore.PropsNoise
import Verif.ActorCritic.ModelTRPO
import Verif.ActorCritic.PropsTrust
import Verif.Logging.Model
import Verif.Logging.Props
import Verif.ActorCritic.ModelBPTT
import Verif.ActorCritic.PropsBPTT
import Verif.TD.SpecGlie
import Verif.TD.LemmasGlie
import Verif.TD.PropsGlie
import Verif.TD.PropsGlieRun
import Verif.TD.LemmasTraj
import Verif.TD.PropsGlieExists
import Verif.TD.PropsGlieSarsa
import Verif.TD.PropsGlieDemo
import Verif.Eval.Spec
import Verif.Eval.Lemmas
import Verif.Eval.Model
import Verif.Eval.LemmasRun
import Verif.Eval.Props
import Verif.Eval.ModelVector
import Verif.Eval.LemmasVector
import Verif.Eval.LemmasVectorMean
import Verif.Eval.LemmasVectorRun
import Verif.Eval.PropsVector
import Verif.DQN.PropsApprox
import Verif.DQN.PropsLspi
import Verif.Eval.LemmasVectorLaw
import Verif.Eval.LemmasVectorJoint
import Verif.Eval.PropsVectorLaw
import Verif.View.Model
import Verif.View.Spec
import Verif.View.Props
import Verif.View.PropsRun
import Verif.View.Frame
import Verif.View.PropsFrame
import Verif.Search.SpecEpisodes
import Verif.Search.LemmasEpisodes
import Verif.Search.PropsConsistent
import Verif.Search.PropsBaseline
import Verif.Search.PropsNatural
import Verif.ValueFn.SpecExact
import Verif.ValueFn.PropsExact
import Verif.Memory.SpecPER
import Verif.Memory.PropsSampling
import Verif.TD.SpecWeighted
import Verif.TD.LemmasWeighted
import Verif.TD.PropsStochWeighted
import Verif.TD.PropsStochWeightedDemo
import Verif.TD.PropsStochSpeedy
import Verif.TD.SpecRQ
import Verif.TD.PropsStochRQ
import Verif.TD.SpecGain
import Verif.TD.PropsGain
import Verif.Wrap.ModelMjData
import Verif.Wrap.SpecMjData
import Verif.Wrap.PropsMjData
import Verif.TD.ModelRateRun
import Verif.TD.PropsRateRun
import Verif.Misc.ModelPlotItems
import Verif.Misc.SpecPlotItems
import Verif.Misc.PropsColors
import Verif.Misc.PropsPlotItems
import Verif.DQN.PropsLosses
import Verif.TD.PropsWatkins
import Verif.Core.Sim
import Verif.Core.PropsObservers
import Verif.TD.ModelLinRun
import Verif.TD.PropsSpecial
import Verif.DQN.ModelAgents
import Verif.DQN.PropsSpecial
import Verif.Core.Split
import Verif.Core.PropsSplit
import Verif.ActorCritic.SpecSoft
import Verif.ActorCritic.LemmasSoft
import Verif.ActorCritic.PropsSoft
import Verif.ActorCritic.PropsSoftGauss
import Verif.ActorCritic.SpecPlain
import Verif.ActorCritic.PropsPlain
import Verif.ActorCritic.PropsPlainMoving
import Verif.DQN.SpecLearned
import Verif.DQN.PropsLearned
import Verif.DQN.PropsLearnedDemo
import Verif.Hockey.ModelDouble
import Verif.Hockey.PropsDouble
import Verif.Wrap.ModelForce
import Verif.Wrap.PropsForce
import Verif.Utils.ModelRot
import Verif.Utils.SpecRot
import Verif.Utils.PropsRot
import Verif.Vector.ModelCallbacks
import Verif.Vector.SpecCallbacks
import Verif.Vector.LemmasCallbacks
import Verif.Vector.PropsCallbacks
import Verif.Stats.ModelBand
import Verif.Stats.SpecBand
import Verif.Stats.PropsBand
import Verif.Stats.PropsBandDemo
import Verif.Search.LemmasPgpe
import Verif.Search.SpecPgpe
import Verif.Search.LemmasChol
import Verif.Search.PropsPgpe
import Verif.Search.ModelRwr
import Verif.Search.SpecRwr
import Verif.Search.PropsRwr
import Verif.Search.PropsRwrRisk
import Verif.Search.LemmasRwrChol
import Verif.Search.PropsRwrChol
import Verif.Search.ModelFit
import Verif.Search.SpecFit
import Verif.Search.PropsFit
import Verif.Search.PropsFitAlmost
import Verif.Search.ModelReps
import Verif.Search.SpecReps
import Verif.Search.LemmasReps
import Verif.Search.PropsReps
import Verif.Search.PropsRepsMultiplier
import Verif.Search.PropsRepsDiag
import Verif.Search.PropsRepsMinimum
import Verif.Misc.ModelInfoShared
import Verif.Misc.PropsInfoShared
import Verif.Search.SpecRwrRepeat
import Verif.Search.PropsRwrRepeat
import Verif.Core.ModelCrash
import Verif.Core.PropsCrash
import Verif.Misc.ModelLogCrash
import Verif.Misc.PropsLogCrash
