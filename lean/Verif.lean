import Verif.Base
import Verif.Props.DisjointSet
import Verif.Props.DancingLinks
import Verif.Props.Sudoku
import Verif.Props.Maze
import Verif.Props.MazeShape
import Verif.Props.Nonogram
import Verif.Props.NonogramPrint
import Verif.Props.NonogramMirror
import Verif.Props.Errors
import Verif.Props.Steps
import Verif.Props.MazeLaw
import Verif.Props.MazeLimit
import Verif.Props.MazeTarget
import Verif.Props.Depth
import Verif.Props.Repeats
import Verif.Props.SudokuSymmetry
import Verif.Props.MazeRoute
import Verif.Props.Calls
import Verif.Props.NonogramPicture
import Verif.Props.MazePicture
import Verif.Props.DisjointSetCost
import Verif.Props.SudokuClues
import Verif.Props.NonogramRead
import Verif.Props.SudokuPicture
import Verif.Props.NonogramCost
import Verif.Props.MazeCost
import Verif.Props.TreeSize
import Verif.Props.Allocator
import Verif.Props.Serde
import Verif.Props.DeepSets
import Verif.Props.Work
import Verif.Props.MazeLength
import Verif.Props.MazeExit
import Verif.Props.MazePrintAll
import Verif.Props.NonogramLabels
import Verif.Props.NonogramMany
import Verif.Props.MazeFar
import Verif.Props.MazeCarve
import Verif.Props.NonogramPrintAll
import Verif.Props.NonogramZero
import Verif.Props.NonogramTarget
import Verif.Props.NonogramText
import Verif.Props.Builds
import Verif.Props.MazeStack
import Verif.Props.NonogramClosed
import Verif.Props.NonogramMargin
import Verif.Props.NonogramDims
import Verif.Props.NonogramUnique
import Verif.Props.MazeEnds
import Verif.Props.FromText
import Verif.Props.MazeOdds
import Verif.Props.MazeCreated
import Verif.Props.MazeMost
import Verif.Props.NonogramSolutionAll
import Verif.Props.Png
import Verif.Props.NonogramPasses
import Verif.Props.DancingLimit
import Verif.Props.NonogramCounter
import Verif.Props.RepSound
import Verif.Props.Endless
import Verif.Props.WrapEq
import Verif.Props.SudokuBuilds
import Verif.Props.PrintTarget
import Verif.Props.Targets
