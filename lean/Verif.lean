import Verif.Ranges.Props
import Verif.Codegen.Props
import Verif.Cg.Props
import Verif.Sparsity.Props
import Verif.Orders.Props
import Verif.Strings.Props
import Verif.Pool.Props
import Verif.Index.Props
import Verif.Print.Props
import Verif.Paths.Props
import Verif.Eval.Props
import Verif.Solve.Props
import Verif.Solve.PropsCollect
import Verif.Subst.Props
import Verif.Dae.Props
import Verif.Dae.PropsPant
import Verif.Dae.PropsIndex
import Verif.Dae.PropsDeriv
import Verif.Arrays.Props
import Verif.Arrays.PropsDefects
import Verif.Marks.Props
import Verif.Deriv.Spec
import Verif.Deriv.Model
import Verif.Deriv.Lemmas
import Verif.Deriv.LemmasAssemble
import Verif.Deriv.Props
import Verif.Deriv.ModelDir
import Verif.Deriv.LemmasTable
import Verif.Deriv.PropsTable
import Verif.Deriv.LemmasDir
import Verif.Deriv.PropsDir
import Verif.Deriv.ModelColor
import Verif.Deriv.LemmasColor
import Verif.Deriv.PropsColor
import Verif.Deriv.ModelDirect
import Verif.Deriv.PropsDirect
import Verif.Atomic.Spec
import Verif.Atomic.Model
import Verif.Atomic.ModelRun
import Verif.Atomic.Lemmas
import Verif.Atomic.LemmasRun
import Verif.Atomic.Props
import Verif.Atomic.PropsRun
import Verif.Atomic.PropsBad
import Verif.Atomic.SpecSparsity
import Verif.Atomic.ModelSparsity
import Verif.Atomic.LemmasSparsity
import Verif.Atomic.PropsSparsity
import Verif.Atomic.ModelScratch
import Verif.Atomic.PropsScratch
import Verif.Patterns.Spec
import Verif.Patterns.Model
import Verif.Patterns.Lemmas
import Verif.Patterns.LemmasGroup
import Verif.Patterns.LemmasTable
import Verif.Patterns.LemmasLoop
import Verif.Patterns.Props
import Verif.Funcs.Spec
import Verif.Funcs.Model
import Verif.Funcs.Lemmas
import Verif.Funcs.LemmasStruct
import Verif.Funcs.LemmasRun
import Verif.Funcs.LemmasSplit
import Verif.Funcs.Props
import Verif.Loops.Spec
import Verif.Loops.Model
import Verif.Loops.ModelJac
import Verif.Loops.Lemmas
import Verif.Loops.LemmasBody
import Verif.Loops.LemmasCond
import Verif.Loops.LemmasRun
import Verif.Loops.LemmasAn
import Verif.Loops.LemmasInv
import Verif.Loops.LemmasJac
import Verif.Loops.LemmasZero
import Verif.Loops.PropsJac
import Verif.Loops.PropsZero
import Verif.Loops.SpecHess
import Verif.Loops.ModelHess
import Verif.Loops.LemmasSum
import Verif.Loops.LemmasHess
import Verif.Loops.LemmasHessAn
import Verif.Loops.LemmasLeaf
import Verif.Loops.LemmasBlocks
import Verif.Loops.LemmasGen
import Verif.Loops.LemmasConst
import Verif.Loops.LemmasHessSum
import Verif.Loops.LemmasHessAll
import Verif.Loops.PropsHess
import Verif.Scopes.Spec
import Verif.Scopes.Model
import Verif.Scopes.Lemmas
import Verif.Scopes.LemmasUpdate
import Verif.Scopes.LemmasExt
import Verif.Scopes.LemmasAlter
import Verif.Scopes.LemmasVisit
import Verif.Scopes.LemmasEnter
import Verif.Scopes.LemmasFirst
import Verif.Scopes.LemmasMark
import Verif.Scopes.Props
import Verif.Scopes.SpecMove
import Verif.Scopes.ModelMove
import Verif.Scopes.LemmasMove
import Verif.Scopes.PropsMove
import Verif.Colors.Spec
import Verif.Colors.Model
import Verif.Colors.LemmasColor
import Verif.Colors.LemmasStore
import Verif.Colors.LemmasWork
import Verif.Colors.LemmasRun
import Verif.Colors.LemmasCall
import Verif.Colors.Props
import Verif.Colors.SpecLoop
import Verif.Colors.ModelLoop
import Verif.Colors.LemmasLoop
import Verif.Colors.PropsLoop
import Verif.Scopes.SpecOrder
import Verif.Scopes.ModelOrder
import Verif.Scopes.LemmasVisitOrder
import Verif.Scopes.LemmasFlat
import Verif.Scopes.LemmasNested
import Verif.Scopes.PropsOrder
import Verif.Scopes.SpecJoin
import Verif.Scopes.ModelJoin
import Verif.Scopes.LemmasJoin
import Verif.Scopes.LemmasJoinStep
import Verif.Scopes.LemmasJoinAll
import Verif.Scopes.LemmasJoinArgs
import Verif.Scopes.PropsJoin
import Verif.Atomic.SpecLocate
import Verif.Atomic.ModelLocate
import Verif.Atomic.LemmasLocate
import Verif.Atomic.PropsLocate
import Verif.Library.SpecLife
import Verif.Library.ModelLife
import Verif.Library.LemmasLife
import Verif.Library.PropsLife
import Verif.Library.SpecNames
import Verif.Library.ModelNames
import Verif.Library.LemmasNames
import Verif.Library.LemmasNamesGen
import Verif.Library.LemmasNamesRun
import Verif.Library.PropsNames
import Verif.Library.SpecCall
import Verif.Library.ModelCall
import Verif.Library.SpecCallRes
import Verif.Library.LemmasCall
import Verif.Library.LemmasCallMat
import Verif.Library.LemmasCallKeep
import Verif.Library.LemmasCallMain
import Verif.Library.LemmasCallRes
import Verif.Library.LemmasCallMore
import Verif.Library.PropsCall
import Verif.Formula.Spec
import Verif.Formula.Model
import Verif.Formula.LemmasRead
import Verif.Formula.LemmasItems
import Verif.Formula.LemmasShow
import Verif.Formula.Props
import Verif.Dae.SpecDummy
import Verif.Dae.ModelDummy
import Verif.Dae.LemmasDummy
import Verif.Dae.LemmasDummyQr
import Verif.Dae.PropsDummy
import Verif.Dae.SpecReorder
import Verif.Dae.ModelReorder
import Verif.Dae.LemmasReorder
import Verif.Dae.LemmasReorder2
import Verif.Dae.LemmasReorder3
import Verif.Dae.PropsReorder
import Verif.Names.Spec
import Verif.Names.Model
import Verif.Names.Lemmas
import Verif.Names.Props
import Verif.Dae.ModelSoares
import Verif.Dae.LemmasSoares
import Verif.Dae.LemmasSoares2
import Verif.Dae.LemmasSoares3
import Verif.Dae.LemmasSoares4
import Verif.Dae.PropsSoares
import Verif.Dae.SpecElim
import Verif.Dae.ModelElim
import Verif.Dae.LemmasElim
import Verif.Dae.LemmasElim2
import Verif.Dae.LemmasElim3
import Verif.Dae.LemmasElim4
import Verif.Dae.PropsElim
import Verif.Dae.SpecRemove
import Verif.Dae.ModelRemove
import Verif.Dae.LemmasRemove
import Verif.Dae.LemmasRemove2
import Verif.Dae.LemmasRemove3
import Verif.Dae.LemmasRemove4
import Verif.Dae.LemmasRemove5
import Verif.Dae.LemmasRemove6
import Verif.Dae.PropsRemove
import Verif.Dae.SpecTape
import Verif.Dae.ModelTape
import Verif.Dae.LemmasTape
import Verif.Dae.LemmasTape2
import Verif.Dae.LemmasTape3
import Verif.Dae.PropsTape
import Verif.Loops.SpecFor1
import Verif.Loops.ModelFor1
import Verif.Loops.LemmasFor1Group
import Verif.Loops.LemmasFor1Run
import Verif.Loops.LemmasFor1
import Verif.Loops.LemmasFor1Col
import Verif.Loops.PropsFor1
import Verif.Loops.SpecRev1
import Verif.Loops.ModelRev1
import Verif.Loops.LemmasRev1
import Verif.Loops.LemmasRev1Row
import Verif.Loops.PropsRev1
import Verif.Loops.SpecRev2
import Verif.Loops.ModelRev2
import Verif.Loops.LemmasOn
import Verif.Loops.LemmasRev2Group
import Verif.Loops.LemmasRev2
import Verif.Loops.LemmasRev2Sum
import Verif.Loops.PropsRev2
import Verif.Loops.SpecUsage
import Verif.Loops.ModelUsage
import Verif.Loops.LemmasUsage
import Verif.Loops.LemmasUsageGroup
import Verif.Loops.LemmasUsageSum
import Verif.Loops.PropsUsage
import Verif.Loops.SpecDeps
import Verif.Loops.ModelDeps
import Verif.Loops.LemmasDeps
import Verif.Loops.PropsDeps
import Verif.Eval.SpecAtomic
import Verif.Eval.ModelAtomic
import Verif.Eval.LemmasAtomic
import Verif.Eval.PropsAtomic
import Verif.Eval.SpecKnown
import Verif.Eval.ModelKnown
import Verif.Eval.LemmasKnown
import Verif.Eval.PropsKnown
import Verif.Timer.Spec
import Verif.Timer.Model
import Verif.Timer.Lemmas
import Verif.Timer.Props
import Verif.Library.SpecBuild
import Verif.Library.ModelBuild
import Verif.Library.LemmasBuild
import Verif.Library.PropsBuild
import Verif.Library.ModelStatic
import Verif.Library.LemmasStatic
import Verif.Library.PropsStatic
import Verif.Library.SpecSources
import Verif.Library.ModelSources
import Verif.Library.LemmasSources
import Verif.Library.PropsSources
import Verif.Library.ModelSave
import Verif.Library.LemmasSave
import Verif.Library.PropsSave
import Verif.Library.ModelDisk
import Verif.Library.LemmasDisk
import Verif.Library.PropsDisk
