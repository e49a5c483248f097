import Verif.Go.Basic
import Verif.Txlogs.Model
import Verif.Txlogs.Spec
import Verif.Txlogs.Lemmas
import Verif.Txlogs.Props
import Verif.Txlogs.Merge
import Verif.Txlogs.MergeSpec
import Verif.Txlogs.MergeLemmas
import Verif.Txlogs.MergeValid
import Verif.Txlogs.MergeProps
import Verif.Txlogs.OrderProps
import Verif.Go.Utf8
import Verif.Go.Strings
import Verif.Fuzzy.Model
import Verif.Fuzzy.Props
import Verif.Blob.Model
import Verif.Blob.Spec
import Verif.Blob.Lemmas
import Verif.Blob.Reach
import Verif.Blob.Lemmas2
import Verif.Blob.Props
import Verif.Pkcs7.Model
import Verif.Pkcs7.Props
import Verif.Crypt.Model
import Verif.Crypt.Spec
import Verif.Crypt.Lemmas
import Verif.Crypt.Lemmas2
import Verif.Crypt.Props
import Verif.Crypt.ReuseProps
import Verif.Go.Fields
import Verif.Scp.Model
import Verif.Scp.Props
import Verif.App.PassGen
import Verif.App.PassGenProps
import Verif.App.Input
import Verif.App.InputProps
import Verif.App.PromptSpec
import Verif.App.PromptProps
import Verif.Go.Hex
import Verif.App.Hosts
import Verif.App.HostsProps
import Verif.App.Merging
import Verif.App.MergingProps
import Verif.App.Session
import Verif.App.SessionSpec
import Verif.App.SessionLemmas
import Verif.App.SessionProps
import Verif.App.Accounts
import Verif.App.AccountsSpec
import Verif.App.AccountsLemmas
import Verif.App.AccountsProps
import Verif.App.AccountsDemo
import Verif.App.Sync
import Verif.App.SyncSpec
import Verif.App.SyncProps
import Verif.App.SyncDemo
import Verif.App.Commands
import Verif.App.Repl
import Verif.App.ReplLemmas
import Verif.App.ReplSpec
import Verif.App.ReplProps
import Verif.Go.Sort
import Verif.Csv.Model
import Verif.Csv.Props
import Verif.App.Transfer
import Verif.App.TransferSpec
import Verif.App.ImportLemmas
import Verif.App.TransferProps
import Verif.App.File
import Verif.App.FileProps
import Verif.Go.Utf8Decode
import Verif.Json.Model
import Verif.Json.StrLemmas
import Verif.Json.ParseLemmas
import Verif.Json.Spec
import Verif.Json.DecodeLemmas
import Verif.Json.Props
import Verif.App.SoundSpec
import Verif.App.SoundLemmas
import Verif.App.SoundLemmas2
import Verif.App.SoundProps
import Verif.App.EffectSpec
import Verif.App.EffectLemmas
import Verif.App.EffectProps
import Verif.App.WriteLemmas
import Verif.App.WriteLemmas2
import Verif.App.AccessSpec
import Verif.App.AccessLemmas
import Verif.App.MetaLemmas
import Verif.App.OwnLemmas
import Verif.App.AccessProps
import Verif.App.SharedSpec
import Verif.App.SharedLemmas
import Verif.App.SharedProps
import Verif.App.WholeSpec
import Verif.App.WholeProps
import Verif.App.EditSpec
import Verif.App.EditProps
import Verif.App.KeepSpec
import Verif.App.KeepProps
import Verif.App.Show
import Verif.App.ShowSpec
import Verif.App.ShowProps
import Verif.Json.Indent
import Verif.Json.IndentLemmas
import Verif.Json.IndentProps
import Verif.Go.Quote
import Verif.Go.QuoteLemmas
import Verif.App.Dump
import Verif.App.DumpProps
import Verif.App.DumpKeys
import Verif.App.GoneSpec
import Verif.App.AddSyncSpec
import Verif.App.AddSyncProps
import Verif.App.Edges
import Verif.App.EdgesSpec
import Verif.App.EdgesProps
import Verif.App.HistoryProps
import Verif.App.LockoutDemo
import Verif.App.FleetScheme
import Verif.App.FleetCore
import Verif.App.FleetDemo
import Verif.App.TightProps
import Verif.App.FleetTextProps
import Verif.App.CrewSpec
import Verif.App.CrewLemmas
import Verif.App.CrewProps
import Verif.App.CrewDemo
import Verif.App.CrewTextDemo
import Verif.App.NetFleetProps
import Verif.App.OverwriteProps
import Verif.App.OtpProps
import Verif.App.TightProps2
import Verif.Json.ReadProps
import Verif.App.FieldsProps
import Verif.App.SyncTextProps
import Verif.Json.SpellProps
import Verif.App.TightProps3
import Verif.App.CrashKeyLemmas
import Verif.App.CrashProps
import Verif.App.CrashUsersDemo
import Verif.App.OwnSyncProps
import Verif.App.OwnSyncDemo
import Verif.App.YearsSpec
import Verif.App.YearsProps
import Verif.App.YearsDemo
import Verif.App.GoneProps
import Verif.App.KeyYearsSpec
import Verif.App.KeyYearsProps
import Verif.App.KeyYearsDemo
import Verif.Go.TimeLemmas
import Verif.App.PastProps
import Verif.App.PastDemo
import Verif.Crypt.Outside
import Verif.Crypt.OutsideProps
import Verif.App.OutsideProps
import Verif.Crypt.Revoke
import Verif.App.RevokeSpec
import Verif.App.RevokeProps
import Verif.App.RevokeDemo
import Verif.App.WordSpec
import Verif.App.WordLemmas
import Verif.App.WordProps
import Verif.App.TempFile
import Verif.App.TempSpec
import Verif.App.TempProps
import Verif.App.Clip
import Verif.App.ClipSpec
import Verif.App.ClipLemmas
import Verif.App.ClipProps
import Verif.App.ClipDemo
import Verif.App.GuessSpec
import Verif.App.GuessLemmas
import Verif.App.GuessProps
import Verif.App.DeskSpec
import Verif.App.DeskProps
import Verif.App.RaceSpec
import Verif.App.RaceLemmas
import Verif.App.RaceProps
import Verif.App.RaceDemo
import Verif.App.OverlookedProps
import Verif.App.RaceUsersDemo
import Verif.App.UnlockSpec
import Verif.App.UnlockProps
import Verif.App.UnlockDemo
import Verif.App.DateSpec
import Verif.App.DateLemmas
import Verif.App.DateProps
import Verif.App.DateDemo
import Verif.App.Complete
import Verif.App.CompleteLemmas
import Verif.App.CompleteProps
import Verif.App.PastUsers
import Verif.App.GoneUsers
import Verif.Crypt.MistypedSpec
import Verif.Crypt.MistypedLemmas
import Verif.Crypt.Mistyped
import Verif.App.Mistyped
import Verif.App.Modes
import Verif.App.ModesSpec
import Verif.App.ModesLemmas
import Verif.App.ModesProps
import Verif.App.Recall
import Verif.App.RecallSpec
import Verif.App.RecallLemmas
import Verif.App.RecallProps
import Verif.App.Said
import Verif.App.SaidProps
import Verif.App.TornSpec
import Verif.App.TornLemmas
import Verif.App.TornProps
import Verif.App.StaleSpec
import Verif.App.StaleLemmas
import Verif.App.StaleProps
import Verif.App.AfterSpec
import Verif.App.AfterLemmas
import Verif.App.AfterProps
import Verif.App.OnceLemmas
import Verif.App.OnceProps
import Verif.Scp.Writes
import Verif.Scp.WritesProps
import Verif.App.ContextSpec
import Verif.App.ContextProps
import Verif.App.SyncedProps
import Verif.App.Random
import Verif.App.RandomSpec
import Verif.App.RandomLemmas
import Verif.App.RandomProps
import Verif.App.ImportedProps
import Verif.App.ImportedUsersProps
import Verif.App.OfflineProps
import Verif.App.ScanProps
import Verif.App.RenamedProps
import Verif.App.LookProps
import Verif.App.MapOrderProps
import Verif.App.ResumeProps
import Verif.App.HelpProps
import Verif.App.RelayProps
import Verif.App.SystemProps
import Verif.App.SentProps
