import Verif.Props.Map
import Verif.Props.Iter
import Verif.Props.Build
import Verif.Props.IMap
import Verif.Props.Step
import Verif.Props.IIter
import Verif.Props.IBuild
import Verif.Props.Set
import Verif.Props.ISet
import Verif.Props.Exhausted
import Verif.Props.General
import Verif.Props.Correspond
import Verif.Props.Dense
import Verif.Props.Exact
import Verif.Props.Crash
import Verif.Props.Tree
import Verif.Props.Order
import Verif.Props.Arbitrary
import Verif.Props.Minimal
import Verif.Props.Complement
import Verif.Props.Permute
import Verif.Props.Debug
import Verif.Props.Cost
import Verif.Props.Fuzz
import Verif.Props.IFuzz
import Verif.Props.Rename
import Verif.Props.Hash
import Verif.Props.Peekable
import Verif.Props.AnyEq
import Verif.Props.Clone
import Verif.Props.Laws
import Verif.Props.Ne
import Verif.Props.CloneCount
import Verif.Props.Mirror
import Verif.Props.QueryWork
import Verif.Props.Borrow
import Verif.Props.IterCrash
import Verif.Props.OpsCrash
import Verif.Props.OpsWork
import Verif.Props.ExtendCrash
import Verif.Props.NotInterrupted
import Verif.Props.SerdeCalls
import Verif.Props.Restrict
import Verif.Props.Recipes
import Verif.Props.Metered
import Verif.Props.OpsInterrupted
import Verif.Props.PropTests
import Verif.Props.IPropTests
import Verif.Props.Provenance
import Verif.Props.ProvenanceOps
import Verif.Props.OpsExact
import Verif.Props.IOverlay
import Verif.Props.ISetPrograms
import Verif.Props.Unflag
import Verif.Props.Unstable
import Verif.Props.KeyEq
import Verif.Props.TreeCmp
import Verif.Props.TreeMeter
import Verif.Props.Calls
import Verif.Props.Twins
import Verif.Props.Nan
import Verif.Props.Lawless
import Verif.Props.LawlessOps
import Verif.Props.DebugText
import Verif.Props.LawlessEnds
import Verif.Props.ILengths
import Verif.Props.Programs
import Verif.Props.ICongruence
import Verif.Props.ICounting
import Verif.Props.SetCost
import Verif.Props.ISetCost
import Verif.Props.Transform
import Verif.Props.ITransform
import Verif.Props.Heal
import Verif.Props.SetMirror
import Verif.Props.OpsLost
import Verif.Props.Traces
import Verif.Props.Allocator
import Verif.Props.Accumulate
import Verif.Props.Nearest
import Verif.Props.Toggle
import Verif.Props.Provided
import Verif.Props.DebugWriter
import Verif.Props.Dialogue
import Verif.Props.IDialogue
import Verif.Props.SetDialogue
import Verif.Props.ISetDialogue
import Verif.Props.LooseDialogue
import Verif.Props.ILooseDialogue
import Verif.Props.OpenIters
import Verif.Props.IOpenIters
import Verif.Props.OpenSets
import Verif.Props.IOpenSets
import Verif.Props.TwinPrograms
import Verif.Props.TwinSetPrograms
import Verif.Props.BlindPrograms
import Verif.Props.IBlindPrograms
import Verif.Props.BlindSetPrograms
import Verif.Props.IBlindSetPrograms
import Verif.Props.MirrorPrograms
import Verif.Props.MirrorSetPrograms
import Verif.Props.EqualPrograms
import Verif.Props.IEqualPrograms
import Verif.Props.EqualSetPrograms
import Verif.Props.IEqualSetPrograms
import Verif.Props.Apart
import Verif.Props.IApart
import Verif.Props.ApartSets
import Verif.Props.IApartSets
import Verif.Props.Turns
import Verif.Props.TurnSets
import Verif.Props.ITurns
import Verif.Props.ITurnSets
import Verif.Props.Slices
import Verif.Props.ISlices
import Verif.Props.Shards
import Verif.Props.IShards
import Verif.Props.SetShards
import Verif.Props.ISetShards
import Verif.Props.Views
import Verif.Props.IViews
import Verif.Props.Zip
import Verif.Props.IZip
import Verif.Props.Window
import Verif.Props.IWindow
import Verif.Props.SetWindow
import Verif.Props.ISetWindow
import Verif.Props.ZipLaws
import Verif.Props.IZipLaws
import Verif.Tests.Crate
