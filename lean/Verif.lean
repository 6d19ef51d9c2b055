import Verif.Props.Sort
import Verif.Props.Groups
import Verif.Props.Layout
import Verif.Props.Barriers
import Verif.Props.Recording
import Verif.Props.Implicit
import Verif.Props.Attachment
import Verif.Props.Ready
import Verif.Props.Announce
import Verif.Props.Frame
import Verif.Props.Dependency
import Verif.Props.GraphBuild
import Verif.Props.Reported
import Verif.Props.Merge
import Verif.Props.Resources
import Verif.Props.Signal
import Verif.Props.Sync
import Verif.Props.Timer
import Verif.Props.Context
import Verif.Props.Mipmaps
import Verif.Props.Pipeline
import Verif.Props.RenderPass
import Verif.Props.Transfer
import Verif.Props.Library
import Verif.Props.Observe
import Verif.Props.Substitute
import Verif.Props.Tables
import Verif.Props.LibraryRuns
import Verif.Props.Contents
import Verif.Props.Clears
import Verif.Props.Keeps
import Verif.Props.Waits
import Verif.Model.Drawing
import Verif.Spec.Drawing
import Verif.Props.Drawing
import Verif.Model.DrawCommands
import Verif.Spec.DrawCommands
import Verif.Props.DrawCommands
import Verif.Props.Rebuild
import Verif.Props.Settle
import Verif.Model.Lifetime
import Verif.Spec.Lifetime
import Verif.Lemmas.Lifetime
import Verif.Props.Lifetime
import Verif.Model.Queue
import Verif.Spec.Queue
import Verif.Props.Queue
import Verif.Model.Dot
import Verif.Spec.Dot
import Verif.Lemmas.Dot
import Verif.Lemmas.DotInv
import Verif.Lemmas.DotSplit
import Verif.Props.Dot
import Verif.Props.DotTrans
import Verif.Props.EdgeData
import Verif.Props.EdgeBuffers
import Verif.Props.DotNeg
import Verif.Model.Threads
import Verif.Spec.Threads
import Verif.Lemmas.Threads
import Verif.Lemmas.ThreadsSeq
import Verif.Lemmas.ThreadsOrder
import Verif.Props.Threads
import Verif.Props.ThreadsDriver
import Verif.Props.ThreadsLive
import Verif.Spec.Bracket
import Verif.Spec.Usage
import Verif.Props.Bracket
import Verif.Props.Usage
import Verif.Model.Times
import Verif.Spec.Times
import Verif.Props.Times
import Verif.Spec.Skip
import Verif.Props.Skip
import Verif.Model.Config
import Verif.Spec.Config
import Verif.Props.Config
import Verif.Props.History
import Verif.Props.Mixed
import Verif.Props.MixedTransfer
import Verif.Props.MixedDrawn
import Verif.Props.MixedImplicit
import Verif.Spec.Declared
import Verif.Props.Declared
import Verif.Props.Flow
import Verif.Props.FlowDeclared
import Verif.Props.Multi
import Verif.Props.MultiDeclared
import Verif.Props.Allocation
import Verif.Props.Labels
import Verif.Props.Hazards
import Verif.Props.BufferHazards
import Verif.Props.MultiHazards
import Verif.Props.Rerecord
import Verif.Props.Flight
import Verif.Props.DotText
import Verif.Props.Log
import Verif.Props.Names
import Verif.Props.Indent
import Verif.Props.Colours
import Verif.Props.DotIndent
