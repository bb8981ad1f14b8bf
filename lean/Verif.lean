import Verif.Spec
import Verif.Osi
import Verif.SimpleRounding.Props
import Verif.TreeInfo.Props
import Verif.Stored.Props
import Verif.OddHole.Props
import Verif.ResCap.Props
import Verif.Clique.Props
import Verif.AllDiff.Witness
import Verif.Knapsack.Witness
import Verif.MIR.Props
import Verif.MIR.Witness
import Verif.Param.Witness
import Verif.Param.ProbingProps
import Verif.Param.Strategies
import Verif.Param.Copies
import Verif.GMI.Witness
import Verif.Gomory.Witness
import Verif.TreeInfo.AnalyzeWitness
import Verif.FlowCover.Witness
import Verif.Twomir.Witness
import Verif.RedSplit.Witness
import Verif.Conflict.Witness
import Verif.ZeroHalf.Witness
import Verif.DupRow.Witness
import Verif.Probing.Witness
import Verif.LandP.Model
import Verif.LandP.Spec
import Verif.LandP.Row
import Verif.LandP.Cut
import Verif.LandP.Clean
import Verif.LandP.Search
import Verif.LandP.Valid
import Verif.LandP.Props
import Verif.LandP.Total
import Verif.LandP.Witness
import Verif.LiftProject.Model
import Verif.LiftProject.Spec
import Verif.LiftProject.Props
import Verif.LiftProject.Witness
import Verif.RedSplit2.Model
import Verif.RedSplit2.Spec
import Verif.RedSplit2.Row
import Verif.RedSplit2.Reduce
import Verif.RedSplit2.Run
import Verif.RedSplit2.Props
import Verif.RedSplit2.Witness
import Verif.PreClique.Model
import Verif.PreClique.Spec
import Verif.PreClique.BK
import Verif.PreClique.Graph
import Verif.PreClique.Props
import Verif.PreClique.Witness
import Verif.PreTighten.Model
import Verif.PreTighten.Spec
import Verif.PreTighten.Sums
import Verif.PreTighten.First
import Verif.PreTighten.Main
import Verif.PreTighten.Cols
import Verif.PreTighten.Strengthen
import Verif.PreTighten.Final
import Verif.PreTighten.Props
import Verif.PreTighten.Witness
import Verif.UniqueCuts.Model
import Verif.UniqueCuts.Spec
import Verif.UniqueCuts.Lemmas
import Verif.UniqueCuts.Props
import Verif.UniqueCuts.Erase
import Verif.UniqueCuts.Rest
import Verif.UniqueCuts.Witness
import Verif.PreInteger.Model
import Verif.PreInteger.Spec
import Verif.PreInteger.Steps
import Verif.PreInteger.Run
import Verif.PreInteger.Props
import Verif.PreInteger.Witness
import Verif.PreFix.Model
import Verif.PreFix.Spec
import Verif.PreFix.Cost
import Verif.PreFix.Some
import Verif.PreFix.Index
import Verif.PreFix.Witness
import Verif.ProbCliques.Model
import Verif.ProbCliques.Spec
import Verif.ProbCliques.Rows
import Verif.ProbCliques.First
import Verif.ProbCliques.Second
import Verif.ProbCliques.Complete
import Verif.ProbCliques.Columns
import Verif.ProbCliques.Setup
import Verif.ProbCliques.Use
import Verif.ProbCliques.Witness
import Verif.ZHSearch.Model
import Verif.ZHSearch.Spec
import Verif.ZHSearch.Store
import Verif.ZHSearch.Sparse
import Verif.ZHSearch.Paths
import Verif.ZHSearch.Cycles
import Verif.ZHSearch.Edges
import Verif.ZHSearch.Props
import Verif.ZHSearch.Complete
import Verif.ZHSearch.Witness
import Verif.PostProc.Model
import Verif.PostProc.Spec
import Verif.PostProc.Basic
import Verif.PostProc.Unwind
import Verif.PostProc.Final
import Verif.PostProc.Props
import Verif.PostProc.Leftover
import Verif.PostProc.Returns
import Verif.PostProc.Frame
import Verif.PostProc.Witness
import Verif.MakeInts.Model
import Verif.MakeInts.Spec
import Verif.MakeInts.Steps
import Verif.MakeInts.Look
import Verif.MakeInts.Pass
import Verif.MakeInts.Props
import Verif.MakeInts.Witness
import Verif.Triple.Model
import Verif.Triple.Spec
import Verif.Triple.Masks
import Verif.Triple.Gather
import Verif.Triple.Lines
import Verif.Triple.Steps
import Verif.Triple.Drop
import Verif.Triple.Free
import Verif.Triple.Run
import Verif.Triple.Loops
import Verif.Triple.Props
import Verif.Triple.Witness
import Verif.Rebuild.Model
import Verif.Rebuild.Spec
import Verif.Rebuild.Single
import Verif.Rebuild.Rows
import Verif.Rebuild.Implied
import Verif.Rebuild.Props
import Verif.Rebuild.Returns
import Verif.Rebuild.Witness
import Verif.Setup.Model
import Verif.Setup.Spec
import Verif.Setup.Scale
import Verif.Setup.Look
import Verif.Setup.Cliques
import Verif.Setup.Slacks
import Verif.Setup.Props
import Verif.Setup.Returns
import Verif.Setup.Witness
import Verif.MoveObj.Model
import Verif.MoveObj.Spec
import Verif.MoveObj.Props
import Verif.MoveObj.Start
import Verif.MoveObj.Witness
import Verif.CutRows.Used
import Verif.CutRows.Model
import Verif.CutRows.Facts
import Verif.CutRows.Spec
import Verif.CutRows.Props
import Verif.CutRows.Witness
import Verif.Snapshot.Model
import Verif.Snapshot.Spec
import Verif.Snapshot.Facts
import Verif.Snapshot.Props
import Verif.Snapshot.Witness
import Verif.ProbingLife.Model
import Verif.ProbingLife.Spec
import Verif.ProbingLife.Props
import Verif.ProbingLife.Witness
import Verif.DomCols.Model
import Verif.DomCols.Spec
import Verif.DomCols.Facts
import Verif.DomCols.Move
import Verif.DomCols.Props
import Verif.DomCols.Witness
import Verif.Vub.Model
import Verif.Vub.Spec
import Verif.Vub.Props
import Verif.Vub.Witness
import Verif.MadeCont.Model
import Verif.MadeCont.Spec
import Verif.MadeCont.Props
import Verif.MadeCont.Witness
import Verif.Finish.Model
import Verif.Finish.Spec
import Verif.Finish.Props
import Verif.Finish.Witness
import Verif.Relax.Model
import Verif.Relax.Props
import Verif.Relax.Witness
import Verif.ProcLife.Model
import Verif.ProcLife.Spec
import Verif.ProcLife.Props
import Verif.ProcLife.Witness
import Verif.Clique.Life
import Verif.Clique.Fake
import Verif.Gomory.Original
import Verif.Gomory.Useless
