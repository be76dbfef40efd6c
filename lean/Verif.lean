import Verif.Model.BP
import Verif.Props.C01_C04
import Verif.Props.C05_C07
import Verif.Props.C08_C11
import Verif.Props.C12
import Verif.Props.C13_C18
import Verif.Props.C19_C20_C44
import Verif.Props.C21_C22
import Verif.Props.C23_C25
import Verif.Props.C26
import Verif.Props.C27_C28
import Verif.Props.C29_C30_C45
import Verif.Props.C31_C33
import Verif.Props.C34_C36
import Verif.Props.C37
import Verif.Props.C37_C54
import Verif.Props.C38
import Verif.Props.C39_C40
import Verif.Props.C41
import Verif.Props.C42_C46
import Verif.Props.C46_large
import Verif.Props.C43
import Verif.Props.C47
import Verif.Props.C48_C51
import Verif.Props.C52
import Verif.Props.C53
import Verif.Props.C54
import Verif.Props.C55
import Verif.Props.C56
import Verif.Props.C57
import Verif.Props.C58
import Verif.Props.C59
import Verif.Props.C60
import Verif.Props.C61
import Verif.Props.C62
import Verif.Props.C63
import Verif.Props.C64
import Verif.Props.C65
import Verif.Props.C66
import Verif.Props.C67
import Verif.Props.C68
import Verif.Props.C69
import Verif.Props.C70
import Verif.Props.C71
import Verif.Props.C72
import Verif.Props.C73
import Verif.Model.ExamplesRun
import Verif.Props.C74
import Verif.Props.C75
import Verif.Props.C76
import Verif.Lemmas.PairNets
import Verif.Lemmas.RcnTree
import Verif.Props.C77
import Verif.Spec.Rate
import Verif.Lemmas.Rate
import Verif.Props.C78
import Verif.Lemmas.RcnRate
import Verif.Props.C79
import Verif.Model.ExamplesImage
import Verif.Spec.Image
import Verif.Lemmas.Image
import Verif.Props.C80
import Verif.Props.C81
import Verif.Spec.Reparam
import Verif.Props.C82
import Verif.Spec.Consistent
import Verif.Lemmas.Consistent
import Verif.Props.C83
import Verif.Spec.Moved
import Verif.Lemmas.Moved
import Verif.Props.C84
import Verif.Model.ExamplesGmrf
import Verif.Spec.Gmrf
import Verif.Lemmas.Gmrf
import Verif.Lemmas.GmrfFlat
import Verif.Props.C85
import Verif.Lemmas.GmrfText
import Verif.Props.C86
import Verif.Lemmas.Batch
import Verif.Lemmas.Rows
import Verif.Props.C87
import Verif.Spec.Rbm
import Verif.Model.ExamplesRbm
import Verif.Lemmas.RbmOdds
import Verif.Lemmas.RbmRun
import Verif.Lemmas.BatchDecode
import Verif.Props.C88
import Verif.Props.C89
import Verif.Props.C90
import Verif.Props.C91_C92
import Verif.Spec.Attractive
import Verif.Lemmas.Attractive
import Verif.Props.C93
import Verif.Lemmas.RbmMono
import Verif.Props.C94
import Verif.Spec.Deconv
import Verif.Model.ExamplesDeconv
import Verif.Lemmas.LogicalRun
import Verif.Lemmas.DeconvOdds
import Verif.Lemmas.DeconvRun
import Verif.Lemmas.DeconvInit
import Verif.Lemmas.DeconvSetup
import Verif.Lemmas.DeconvDecode
import Verif.Props.C95
import Verif.Spec.DeconvSym
import Verif.Lemmas.DeconvSym
import Verif.Props.C96
import Verif.Model.ExamplesPlot
import Verif.Spec.Plot
import Verif.Lemmas.Plot
import Verif.Props.C97
import Verif.Spec.Retype
import Verif.Lemmas.Retype
import Verif.Props.C98
import Verif.Spec.Cover
import Verif.Lemmas.Cover
import Verif.Props.C99
import Verif.Spec.Unwrap
import Verif.Lemmas.Unwrap
import Verif.Props.C100
import Verif.Model.ProgramCuts
import Verif.Spec.Cuts
import Verif.Lemmas.Cuts
import Verif.Lemmas.CutsSetup
import Verif.Lemmas.CutsRun
import Verif.Props.C101
import Verif.Spec.Unanimous
import Verif.Props.C102
import Verif.Model.ProgramPatches
import Verif.Spec.Patches
import Verif.Lemmas.Patches
import Verif.Spec.Independent
import Verif.Props.C104
import Verif.Lemmas.PatchesRun
import Verif.Props.C103
import Verif.Spec.Bethe
import Verif.Lemmas.Bethe
import Verif.Lemmas.BetheTree
import Verif.Props.C105
import Verif.Props.C106
import Verif.Lemmas.Cluster
import Verif.Props.C107
import Verif.Lemmas.Scale
import Verif.Props.C108
import Verif.Lemmas.Rising
import Verif.Props.C109
import Verif.Lemmas.Levels
import Verif.Lemmas.Persist
import Verif.Props.C110
import Verif.Spec.Ring
import Verif.Lemmas.Ring
import Verif.Lemmas.RingBP
import Verif.Props.C111
import Verif.Lemmas.AttractiveReg
import Verif.Props.C93_C109_Pairs
import Verif.Model.ProgramGates
import Verif.Lemmas.Gates
import Verif.Lemmas.GatesBuild
import Verif.Lemmas.GatesRun
import Verif.Lemmas.GatesSame
import Verif.Spec.Gates
import Verif.Props.C112
import Verif.Spec.Separate
import Verif.Props.C113
import Verif.Props.C113_Gates
import Verif.Model.ProgramTies
import Verif.Spec.Ties
import Verif.Lemmas.Ties
import Verif.Lemmas.TiesRun
import Verif.Props.C114
import Verif.Model.Jit
import Verif.Spec.Jit
import Verif.Lemmas.Jit
import Verif.Lemmas.JitUpdate
import Verif.Props.C115
import Verif.Model.Pytree
import Verif.Spec.Pytree
import Verif.Props.C116
import Verif.Spec.Ball
import Verif.Lemmas.Ball
import Verif.Lemmas.Girth
import Verif.Props.C117
import Verif.Spec.Cutset
import Verif.Lemmas.CutRows
import Verif.Lemmas.Cutset
import Verif.Props.C118
