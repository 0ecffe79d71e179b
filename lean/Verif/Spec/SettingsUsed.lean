import Verif.Model.Boost
/-! Vocabulary for statements about the settings that a trained model depends on. -/
namespace BitBoost.Spec

/-- The two configurations agree in the settings of the learner. Not among them: the names of the files, the format of the
files, the categorical features, the name of the objective, the metrics, how often they are evaluated, the number of
iterations, the random seed, and the settings of single objectives. -/
structure SameLearner (c c' : Config) : Prop where
  learningRate : c'.learningRate = c.learningRate
  regLambda : c'.regLambda = c.regLambda
  minExamplesLeaf : c'.minExamplesLeaf = c.minExamplesLeaf
  minGain : c'.minGain = c.minGain
  maxNbins : c'.maxNbins = c.maxNbins
  discrNbits : c'.discrNbits = c.discrNbits
  maxTreeDepth : c'.maxTreeDepth = c.maxTreeDepth
  compressionThreshold : c'.compressionThreshold = c.compressionThreshold
  featureFraction : c'.featureFraction = c.featureFraction
  exampleFraction : c'.exampleFraction = c.exampleFraction
  sampleFreq : c'.sampleFreq = c.sampleFreq

/-- … and in the settings of this objective: `huber_alpha` for `huber`, `binary_gradient_bound` for `binary`. -/
structure SameObjective (k : ObjKind) (c c' : Config) : Prop where
  huber : k = .huber → c'.huberAlpha = c.huberAlpha
  binary : k = .binary → c'.binaryGradientBound = c.binaryGradientBound

end BitBoost.Spec
