import Verif.Model.Server
import Verif.Tests.Transcripts
import Verif.Props.Pktline
import Verif.Props.Parsing
import Verif.Lemmas.Fuel
import Verif.Props.Loop
import Verif.Props.Output
import Verif.Props.Store
import Verif.Props.System
import Verif.Props.Objects
import Verif.Props.Locks
import Verif.Props.Sync
import Verif.Props.SyncExact
import Verif.Props.Crash
import Verif.Model.Late
import Verif.Props.Late
import Verif.Props.Reads
import Verif.Props.Unlock
import Verif.Props.Utf8
import Verif.Props.LockFile
import Verif.Props.GitAt
import Verif.Props.RecentRefs
import Verif.Props.Pager
import Verif.Props.Work
import Verif.Props.Permissions
import Verif.Props.Shared
import Verif.Props.SharedLocks
import Verif.Props.SharedList
import Verif.Props.Extent
import Verif.Props.Interactive
import Verif.Props.Report
import Verif.Props.Many
import Verif.Props.Startup
import Verif.Props.PktlineExact
import Verif.Props.Table
import Verif.Props.Power
import Verif.Props.Outage
import Verif.Props.Align
import Verif.Props.Readable
import Verif.Spec.Meaning
import Verif.Lemmas.Meaning
import Verif.Props.Meaning
import Verif.Props.Meanings
import Verif.Spec.Again
import Verif.Lemmas.Stop
import Verif.Lemmas.Stopped
import Verif.Props.Again
import Verif.Spec.Cut
import Verif.Lemmas.Cut
import Verif.Props.Cut
import Verif.Spec.Lax
import Verif.Spec.Any
import Verif.Lemmas.Any
import Verif.Props.Any
import Verif.Props.AnyOne
import Verif.Lemmas.Faulty
import Verif.Lemmas.FaultyTurn
import Verif.Props.AnyAll
import Verif.Props.Faulty
import Verif.Lemmas.Unharmed
import Verif.Props.Unharmed
import Verif.Spec.SharedAny
import Verif.Lemmas.AmongAny
import Verif.Props.SharedAny
import Verif.Spec.Checked
import Verif.Lemmas.Checked
import Verif.Props.Checked
import Verif.Model.Pieces
import Verif.Props.Pieces
import Verif.Model.Misled
import Verif.Props.Misled
import Verif.Spec.Push
import Verif.Props.Push
import Verif.Model.Stderr
import Verif.Props.Stderr
import Verif.Spec.Loose
import Verif.Props.Loose
import Verif.Spec.Blackout
import Verif.Props.Blackout
import Verif.Spec.Leftover
import Verif.Props.Leftover
import Verif.Spec.Retry
import Verif.Props.Retry
import Verif.Spec.Ghost
import Verif.Props.Ghost
import Verif.Spec.Aside
import Verif.Lemmas.Apart
import Verif.Lemmas.Keep
import Verif.Props.Aside
import Verif.Spec.Stints
import Verif.Props.Stints
import Verif.Props.Persist
import Verif.Tests.Units
