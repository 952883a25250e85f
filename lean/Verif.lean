import Verif.Props.MultiIndex
import Verif.Props.KnotVector
import Verif.Props.Evaluation
import Verif.Props.Derivatives
import Verif.Props.KnotInsertion
import Verif.Props.Construction
import Verif.Props.Subdivision
import Verif.Props.KnotRemoval
import Verif.Props.Degree
import Verif.Props.DegreeReduction
import Verif.Props.Strings
import Verif.Props.Elements
import Verif.Props.Quadrature
import Verif.Props.Converter
import Verif.Props.Vtk
import Verif.Props.Comparison
import Verif.Props.History
import Verif.Props.Irit
import Verif.Props.Copy
import Verif.Props.Generators
import Verif.Props.Sweep
import Verif.Props.Uniqueness
import Verif.Props.Projection
import Verif.Props.Xml
import Verif.Props.Iges
import Verif.Model.Iga
import Verif.Core.IgaBasis
import Verif.Core.IgaDeriv
import Verif.Core.IgaMapping
import Verif.Core.IgaAssembly
import Verif.Core.IgaSystem
import Verif.Core.IgaBoundary
import Verif.Core.IgaSolution
import Verif.Core.IgaPoisson
import Verif.Props.Iga
import Verif.Model.ConverterLog
import Verif.Core.ConverterLog
import Verif.Props.ConverterLog
import Verif.Model.Files
import Verif.Props.Files
import Verif.Props.Vectors
import Verif.Core.Integral
import Verif.Core.PolyOn
import Verif.Core.PolyBasis
import Verif.Core.IgaIntegral
import Verif.Props.Integrals
import Verif.Core.Solvable
import Verif.Props.Solvable
import Verif.Core.Safe
import Verif.Props.Safety
import Verif.Model.Rounded
import Verif.Core.Rounded
import Verif.Core.RoundedEval
import Verif.Core.Binary
import Verif.Props.Rounding
import Verif.Model.Pugi
import Verif.Spec.XmlText
import Verif.Core.Pugi
import Verif.Core.XmlText
import Verif.Core.PugiPrefix
import Verif.Core.XmlTruncated
import Verif.Props.XmlText
import Verif.Model.VtkText
import Verif.Spec.VtkFormat
import Verif.Core.Significant
import Verif.Core.LiteralUnique
import Verif.Core.VtkText
import Verif.Props.VtkText
import Verif.Core.IritCut
import Verif.Core.IgesCut
import Verif.Props.Truncated
import Verif.Props.Leftover
import Verif.Model.RoundedStrings
import Verif.Core.RoundedStrings
import Verif.Props.RoundedText
import Verif.Model.RoundedInsertion
import Verif.Core.RoundedAdjust
import Verif.Core.RoundedInsert
import Verif.Props.RoundedInsertion
import Verif.Props.RoundedDerivs
import Verif.Props.IntRange
import Verif.Props.Programs
import Verif.Props.Smooth
import Verif.Props.Reproduce
import Verif.Props.Variation
import Verif.Props.Shape
import Verif.Props.IgesGlobal
import Verif.Tests.Baf
import Verif.Tests.Spl
import Verif.Tests.Change
import Verif.Tests.Util
import Verif.Tests.Io
import Verif.Props.Interpolation
import Verif.Props.CloseKnots
import Verif.Props.ControlNet
import Verif.Props.Descriptions
import Verif.Props.Bezier
import Verif.Props.Tangents
import Verif.Props.CloseDeriv
import Verif.Props.ElementsEdge
import Verif.Props.SteadyLimit
import Verif.Props.CloseInsert
import Verif.Props.DirectionOrder
import Verif.Props.CloseCut
import Verif.Props.EndInsert
import Verif.Props.IgaWeights
import Verif.Props.RemovalUnchecked
import Verif.Props.Hodograph
import Verif.Props.RoundedSubdivision
import Verif.Props.FullMultiplicity
import Verif.Props.Special
import Verif.Props.Accepted
import Verif.Props.RoundedSampling
import Verif.Props.RoundedProjection
import Verif.Props.Stability
import Verif.Props.Examples
import Verif.Props.VtkInt
import Verif.Props.SplineIntegral
import Verif.Props.SameDerivatives
import Verif.Props.SamplingError
import Verif.Props.HigherDifferences
import Verif.Props.CurveLength
import Verif.Props.ShapePreserving
import Verif.Props.Isoparametric
import Verif.Props.SurfaceSampling
import Verif.Props.IsoparametricNurbs
import Verif.Props.VolumeSampling
