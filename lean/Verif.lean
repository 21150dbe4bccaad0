import Verif.Codec.Props
import Verif.Page.Props
import Verif.Time.Props
import Verif.Predicate.Props
import Verif.Utils.Props
import Verif.Meta.BucketProps
import Verif.Meta.AuthProps
import Verif.Predicate.DeleteTime
import Verif.Index.Filter
import Verif.Wal.RecordProps
import Verif.Wal.Ring
import Verif.Wal.LogProps
import Verif.Wal.RecoverProps
import Verif.Wal.TornAppend
import Verif.Wal.Entry
import Verif.Wal.ReadAt
import Verif.Tomb.Read
import Verif.Mem.Latest
import Verif.Version.CodecProps
import Verif.Version.Props
import Verif.Flush.Props
import Verif.Reader.Props
import Verif.Reader.Series
import Verif.Reader.Latest
import Verif.Compact.Model
import Verif.Compact.Group
import Verif.Compact.Visit
import Verif.Compact.Ans
import Verif.Compact.MergeSpec
import Verif.Compact.Run
import Verif.Compact.Props
import Verif.Compact.ColumnsKeep
import Verif.Line.Props
import Verif.Stats.Props
import Verif.Stats.Batch
import Verif.Window.Props
import Verif.Agg.First
import Verif.Agg.Gauge
import Verif.Agg.Mode
import Verif.Agg.StateAgg
import Verif.Agg.Sample
import Verif.Agg.Increase
import Verif.Tsm.Examples
import Verif.Schema.Ddl
import Verif.Count.Flush
import Verif.Align.Refute
import Verif.Write.Refute
import Verif.Pick.Refute
import Verif.Watch.LogProps
import Verif.Watch.Refute
import Verif.Replica.Props
import Verif.Replica.Refute
import Verif.Replica.Clone
import Verif.Raft.Props
import Verif.Raft.Together
import Verif.Raft.Snap
import Verif.Cluster.Refute
import Verif.Cluster.Call
import Verif.Plan.Refute
import Verif.Ingest.Refute
import Verif.Ingest.OtlpScope
import Verif.Ingest.TcpLine
import Verif.Ingest.Requests
import Verif.Stream.Refute
import Verif.Insert.Refute
import Verif.Rules.Filter
import Verif.Rules.Plans
import Verif.Stream.Range
import Verif.Insert.Refused
import Verif.Repair.More
import Verif.Repair.Times
import Verif.Repair.Columns
import Verif.Repair.Quality
import Verif.Dump.Props
import Verif.Limit.Model
import Verif.Limit.Props
import Verif.Limit.More
import Verif.Limit.Bound
import Verif.Limit.Witness
import Verif.Tasks.Model
import Verif.Tasks.Props
import Verif.Tasks.Drop
import Verif.Tasks.Recover
import Verif.Tasks.Stays
import Verif.Tasks.Witness
import Verif.Tasks.Done
import Verif.Tasks.Example
import Verif.Retag.Model
import Verif.Retag.Props
import Verif.Retag.Witness
import Verif.Leader.Find
import Verif.Leader.Lost
import Verif.Track.Model
import Verif.Track.Props
import Verif.Track.Kill
import Verif.Track.Witness
import Verif.Group.Model
import Verif.Group.Inv
import Verif.Group.Props
import Verif.Group.Witness
import Verif.Group.More
import Verif.Jaeger.Model
import Verif.Jaeger.Props
import Verif.Jaeger.Traces
import Verif.Jaeger.Find
import Verif.Jaeger.Witness
import Verif.Jaeger.More
import Verif.Catalog.Model
import Verif.Catalog.Props
import Verif.Catalog.Listing
import Verif.Catalog.More
import Verif.Catalog.Witness
import Verif.Reply.Auth
import Verif.Reply.Model
import Verif.Reply.Csv
import Verif.Reply.Props
import Verif.Reply.Witness
import Verif.Order.Model
import Verif.Order.Props
import Verif.Version.Split
import Verif.Home.Model
import Verif.Home.Props
import Verif.Home.More
import Verif.Dump.More
import Verif.Retag.More
import Verif.Tasks.More
import Verif.Leader.More
import Verif.Reply.More
import Verif.Quota.Model
import Verif.Quota.Basic
import Verif.Quota.Props
import Verif.Quota.Members
import Verif.Quota.Witness
import Verif.Quota.More
import Verif.Files.Stream
import Verif.Files.Props
import Verif.Files.Log
import Verif.Files.Names
import Verif.Files.NameProps
import Verif.Files.More
import Verif.MetaLog.Model
import Verif.MetaLog.Props
import Verif.MetaLog.Crash
import Verif.Readers.Model
import Verif.Readers.Props
import Verif.Readers.Bound
import Verif.Readers.Calm
