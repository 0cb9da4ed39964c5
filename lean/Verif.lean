import Verif.Basic
import Verif.SMap
import Verif.Spec.KV
import Verif.Log.MemTable
import Verif.Log.LogMgr
import Verif.Log.MemLemmas
import Verif.Log.MgrLemmas
import Verif.Log.MgrLemmas2
import Verif.Log.SyncLemmas
import Verif.Log.FlushLemmas
import Verif.Log.FlushLemmas2
import Verif.Log.BarrierLemmas
import Verif.Log.Crash
import Verif.Log.CrashLemmas
import Verif.Log.StoreLemmas
import Verif.DB.Crash
import Verif.DB.Model
import Verif.DB.Calls
import Verif.DB.Reach
import Verif.DB.ReachInv
import Verif.DB.Lemmas
import Verif.DB.Flat
import Verif.Props.KV
import Verif.Props.Log
import Verif.Codec.CrcTable
import Verif.Codec.Crc
import Verif.Codec.CrcLemmas
import Verif.Codec.Endian
import Verif.Codec.LogCodec
import Verif.Codec.LogCodecLemmas
import Verif.Codec.CorruptLemmas
import Verif.Codec.KeyOrder
import Verif.Codec.Bloom
import Verif.Props.Codec
import Verif.Props.Keys
import Verif.Props.Bloom
import Verif.Codec.Frame
import Verif.Codec.LogMani
import Verif.Codec.TabMani
import Verif.Codec.DbManiLemmas
import Verif.Props.Manifest
import Verif.Conc.Sema
import Verif.Conc.Locks
import Verif.Conc.RefCount
import Verif.Conc.Evict
import Verif.Conc.Numbers
import Verif.Conc.Awaiter
import Verif.Conc.FlusherQ
import Verif.Props.Conc
import Verif.Table.Model
import Verif.Table.Lemmas
import Verif.Table.Merge
import Verif.Table.Ops
import Verif.Table.L0
import Verif.Table.Stack
import Verif.Table.Lsm
import Verif.Table.Order
import Verif.Props.Table
import Verif.Log.StoreInv
import Verif.Log.RecoverLemmas
import Verif.Log.Wrote
import Verif.Log.Reopen
import Verif.Log.Complete
import Verif.DB.CrashLemmas
import Verif.Props.Crash
import Verif.Iter.Merge
import Verif.Iter.MergeLemmas
import Verif.Iter.MergeLaws
import Verif.Iter.Leaf
import Verif.Iter.LeafLaws
import Verif.Iter.DBItr
import Verif.Iter.Compose
import Verif.Iter.LogItrLemmas
import Verif.Iter.TabItrLemmas
import Verif.Spec.Iter
import Verif.DB.Script
import Verif.Iter.Client
import Verif.Iter.Handle
import Verif.Iter.KeyItrLemmas
import Verif.Iter.KeyDBLemmas
import Verif.Props.Iter
import Verif.DB.Kept
import Verif.Iter.SeqItr
import Verif.Iter.SeqLeafLaws
import Verif.Iter.SeqItrLemmas
import Verif.Props.SeqIter
import Verif.Table.Marks
import Verif.Table.MarkLemmas
import Verif.Table.MarkInv
import Verif.DB.Snap
import Verif.DB.SnapScript
import Verif.DB.Eff
import Verif.Table.SnapLemmas
import Verif.DB.SnapInv
import Verif.DB.Session
import Verif.DB.SessionLemmas
import Verif.Props.Session
import Verif.DB.SnapView
import Verif.DB.SnapOpen
import Verif.Table.KeepMarks
import Verif.DB.SnapKept
import Verif.Props.Snap
import Verif.Log.Rollback
import Verif.Log.RollbackLemmas
import Verif.Log.LogStore
import Verif.Log.LogStoreLemmas
import Verif.DB.Rollback
import Verif.DB.RollbackLemmas
import Verif.Props.Rollback
import Verif.DB.GlobalBatch
import Verif.DB.GlobalBatchLemmas
import Verif.DB.ReaderRace
import Verif.Conc.LockOrder
import Verif.Props.GlobalBatch
import Verif.Props.ReaderRace
import Verif.Props.LockOrder
import Verif.Log.Discard
import Verif.Log.DiscardLemmas
import Verif.DB.Discard
import Verif.DB.DiscardLemmas
import Verif.Props.Discard
import Verif.DB.WriteOps
import Verif.Props.ReadOnly
import Verif.Codec.ByteKey
import Verif.Spec.Search
import Verif.DB.Search
import Verif.DB.SearchLemmas
import Verif.Props.Search
import Verif.Spec.Nearest
import Verif.DB.Nearest
import Verif.DB.NearestLemmas
import Verif.Props.Nearest
import Verif.IO.Direct
import Verif.IO.DirectLemmas
import Verif.Props.DirectIO
import Verif.Props.Booster
import Verif.Index.Skip
import Verif.Index.SkipLemmas
import Verif.Index.SkipInsert
import Verif.Index.SkipErase
import Verif.Props.Skiplist
import Verif.Index.SkipConc
import Verif.Index.SkipConcLemmas
import Verif.Index.SkipConcReader
import Verif.Props.SkipRace
import Verif.Table.BloomGet
import Verif.Table.BloomInv
import Verif.Props.TableBloom
import Verif.Table.L0Only
import Verif.Table.L0OnlyInv
import Verif.Table.L0OnlyOps
import Verif.Props.L0Only
import Verif.DB.LogStore
import Verif.DB.LogStoreLemmas
import Verif.Props.LogStore
import Verif.Conc.Handles
import Verif.Props.Handles
import Verif.DB.SkipSync
import Verif.Props.SkipSync
import Verif.DB.NoFsync
import Verif.Props.NoFsync
import Verif.Index.Avl
import Verif.Index.AvlOrder
import Verif.Props.Avl
import Verif.Builder.Model
import Verif.Builder.LogLemmas
import Verif.Builder.TableLemmas
import Verif.Builder.Section
import Verif.Builder.DBLemmas
import Verif.Props.Builder
import Verif.Iter.Within
import Verif.Iter.WithinDB
import Verif.Sampler.Model
import Verif.Sampler.Lemmas
import Verif.Props.Sampler
import Verif.FastScan.Model
import Verif.FastScan.Lemmas
import Verif.Props.FastScan
import Verif.Fail.Model
import Verif.Fail.Lemmas
import Verif.Props.FailedWrites
import Verif.Writer.Model
import Verif.Writer.Lemmas
import Verif.Writer.Tables
import Verif.Props.Writers
import Verif.DB.TornSession
import Verif.DB.TornLemmas
import Verif.Props.TornSession
import Verif.Timer.Model
import Verif.Timer.Lemmas
import Verif.Timer.Progress
import Verif.Props.Timer
import Verif.Worker.Pick
import Verif.Worker.Throttle
import Verif.Props.Worker
import Verif.Table.Fix
import Verif.Props.Fix
import Verif.Conc.BgTask
import Verif.Props.BgTask
import Verif.Table.CompactCb
import Verif.Props.CompactCb
import Verif.Table.CustomCmp
import Verif.Props.CustomCmp
import Verif.Mem.Buf
import Verif.Props.Mem
import Verif.Worker.CompactCond
import Verif.Props.CompactCond
import Verif.DB.Clone
import Verif.Props.Clone
import Verif.Worker.Backpressure
import Verif.Props.Backpressure
import Verif.DB.Stats
import Verif.Props.Stats
import Verif.DB.Files
import Verif.Props.Files
import Verif.Worker.Idle
import Verif.Props.Idle
import Verif.Codec.FlushBuf
import Verif.Props.FlushBuf
import Verif.Log.MinSeq
import Verif.Props.MinSeq
import Verif.DB.LogMode
import Verif.Props.LogMode
import Verif.Worker.Urgent
import Verif.DB.FirstOpen
import Verif.Props.Urgent
import Verif.Props.FirstOpen
import Verif.Table.Limits
import Verif.Props.Limits
import Verif.Log.Reclaim
import Verif.Props.Reclaim
