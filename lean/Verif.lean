import Verif.Base.Csv
import Verif.Base.Digest
import Verif.Base.Hash
import Verif.Base.Rx
import Verif.Base.Str
import Verif.Base.Windows1252
import Verif.Examples.Base
import Verif.Examples.Books
import Verif.Examples.Exact
import Verif.Examples.Import
import Verif.Examples.Journals
import Verif.Examples.Systems
import Verif.Examples.Texts
import Verif.Model.Arena
import Verif.Model.Commands
import Verif.Model.Comment
import Verif.Model.CommentText
import Verif.Model.Convert
import Verif.Model.Files
import Verif.Model.Fingerprint
import Verif.Model.ImportCmd
import Verif.Model.ImportFiles
import Verif.Model.ImportUtil
import Verif.Model.Internal
import Verif.Model.Ledger
import Verif.Model.Machine
import Verif.Model.Main
import Verif.Model.MatchSet
import Verif.Model.MergePosting
import Verif.Model.MergeTransaction
import Verif.Model.Merger
import Verif.Model.MutCell
import Verif.Model.NationwideCsv
import Verif.Model.NationwidePdf
import Verif.Model.Ocr
import Verif.Model.PaypalCsv
import Verif.Model.ReadText
import Verif.Model.Rules
import Verif.Model.Stdout
import Verif.Model.Tesseract
import Verif.Model.Together
import Verif.Model.TzAbbr
import Verif.Proofs.Absorb
import Verif.Proofs.After
import Verif.Proofs.Again
import Verif.Proofs.Apart
import Verif.Proofs.Apply
import Verif.Proofs.Bisim
import Verif.Proofs.Bisim2
import Verif.Proofs.Build
import Verif.Proofs.Check
import Verif.Proofs.CommentFormat
import Verif.Proofs.CommentParse
import Verif.Proofs.CommentText
import Verif.Proofs.Csv
import Verif.Proofs.Cut
import Verif.Proofs.Days
import Verif.Proofs.Edits
import Verif.Proofs.EditsExact
import Verif.Proofs.Entries
import Verif.Proofs.FileKept
import Verif.Proofs.Files
import Verif.Proofs.Fingerprint
import Verif.Proofs.FirstError
import Verif.Proofs.History
import Verif.Proofs.Import
import Verif.Proofs.Journal
import Verif.Proofs.MatchSet
import Verif.Proofs.Matching
import Verif.Proofs.MergeAgain
import Verif.Proofs.MergeCmd
import Verif.Proofs.Money
import Verif.Proofs.NationwideCsv
import Verif.Proofs.NationwidePdf
import Verif.Proofs.NationwideTable
import Verif.Proofs.Order
import Verif.Proofs.Outcome
import Verif.Proofs.Overlap
import Verif.Proofs.Pipe
import Verif.Proofs.PipeIn
import Verif.Proofs.Plan
import Verif.Proofs.Posting
import Verif.Proofs.ReadTags
import Verif.Proofs.Rearrange
import Verif.Proofs.Refine
import Verif.Proofs.Relabel
import Verif.Proofs.Rename
import Verif.Proofs.RenameExact
import Verif.Proofs.Reorder
import Verif.Proofs.ReorderCmd
import Verif.Proofs.Replay
import Verif.Proofs.Reread
import Verif.Proofs.Return
import Verif.Proofs.Rules
import Verif.Proofs.Runs
import Verif.Proofs.Rx
import Verif.Proofs.Session
import Verif.Proofs.Settled
import Verif.Proofs.Tesseract
import Verif.Proofs.Together
import Verif.Proofs.Transfer
import Verif.Proofs.Tsv
import Verif.Proofs.TwoWriters
import Verif.Props.Again
import Verif.Props.AgainCmd
import Verif.Props.Alone
import Verif.Props.Arena
import Verif.Props.Balance
import Verif.Props.BalanceExact
import Verif.Props.Bank
import Verif.Props.BankCsv
import Verif.Props.BankFiles
import Verif.Props.BankPaypal
import Verif.Props.BankPdf
import Verif.Props.ByHand
import Verif.Props.ByHandCmd
import Verif.Props.Bytes
import Verif.Props.Calendar
import Verif.Props.Commands
import Verif.Props.Comments
import Verif.Props.Complete
import Verif.Props.Containers
import Verif.Props.Convergence
import Verif.Props.Convert
import Verif.Props.Crash
import Verif.Props.CrashExact
import Verif.Props.CrashImport
import Verif.Props.CrashMoment
import Verif.Props.Days
import Verif.Props.DaysCmd
import Verif.Props.DaysCsv
import Verif.Props.DaysPaypal
import Verif.Props.Edits
import Verif.Props.Encoding
import Verif.Props.ExampleRules
import Verif.Props.Fingerprint
import Verif.Props.FpGen
import Verif.Props.HandedBack
import Verif.Props.ImportAll
import Verif.Props.ImportCmd
import Verif.Props.ImportFiles
import Verif.Props.ImportMerge
import Verif.Props.KeepTags
import Verif.Props.Looks
import Verif.Props.Machine
import Verif.Props.Matching
import Verif.Props.Matching2
import Verif.Props.Matching3
import Verif.Props.Matching4
import Verif.Props.MergeAgain
import Verif.Props.Migrate
import Verif.Props.Money
import Verif.Props.Month
import Verif.Props.MoveCmd
import Verif.Props.NationwideCsv
import Verif.Props.NationwideDistinct
import Verif.Props.NationwidePdf
import Verif.Props.NewRules
import Verif.Props.Ocr
import Verif.Props.Order
import Verif.Props.OrderCmd
import Verif.Props.Overlap
import Verif.Props.OverlapExact
import Verif.Props.OverlapPaypal
import Verif.Props.PaypalCsv
import Verif.Props.PaypalDistinct
import Verif.Props.PdfDistinct
import Verif.Props.PdfStatements
import Verif.Props.Pipe
import Verif.Props.Pipeline
import Verif.Props.ReadColumns
import Verif.Props.ReadText
import Verif.Props.ReadTsv
import Verif.Props.Rearrange
import Verif.Props.Recover
import Verif.Props.Reformat
import Verif.Props.Rename
import Verif.Props.Reorder
import Verif.Props.ReorderCmd
import Verif.Props.Replay
import Verif.Props.Return
import Verif.Props.RewriteAgain
import Verif.Props.RuleFiles
import Verif.Props.Rules
import Verif.Props.RulesAgain
import Verif.Props.RulesAgainCmd
import Verif.Props.RulesMerge
import Verif.Props.RulesMergeCmd
import Verif.Props.RulesMissing
import Verif.Props.RulesTermination
import Verif.Props.Safety
import Verif.Props.SameLedgers
import Verif.Props.Session
import Verif.Props.SessionGrows
import Verif.Props.SessionMoney
import Verif.Props.SessionRules
import Verif.Props.Sources
import Verif.Props.Status
import Verif.Props.Stdout
import Verif.Props.Tesseract
import Verif.Props.Together
import Verif.Props.Transfer
import Verif.Props.Twice
import Verif.Props.TwiceCmd
import Verif.Props.TwiceImport
import Verif.Props.TwoRuns
import Verif.Props.TwoRunsExact
import Verif.Props.TwoWriters
import Verif.Props.TzAbbr
import Verif.Props.Utf8
import Verif.Props.White
import Verif.Spec.Again
import Verif.Spec.Alone
import Verif.Spec.Bank
import Verif.Spec.Book
import Verif.Spec.ByHand
import Verif.Spec.Bytes
import Verif.Spec.Calendar
import Verif.Spec.Comment
import Verif.Spec.Complete
import Verif.Spec.Containers
import Verif.Spec.Csv
import Verif.Spec.Days
import Verif.Spec.DaysCmd
import Verif.Spec.Edits
import Verif.Spec.Encoding
import Verif.Spec.ExampleRules
import Verif.Spec.Files
import Verif.Spec.Fingerprint
import Verif.Spec.FirstError
import Verif.Spec.History
import Verif.Spec.Import
import Verif.Spec.ImportCmd
import Verif.Spec.ImportFiles
import Verif.Spec.Ledger
import Verif.Spec.Looks
import Verif.Spec.MergeCmd
import Verif.Spec.Money
import Verif.Spec.NationwidePdf
import Verif.Spec.Order
import Verif.Spec.Outcome
import Verif.Spec.Pipe
import Verif.Spec.Pipeline
import Verif.Spec.Posting
import Verif.Spec.Rearrange
import Verif.Spec.Recover
import Verif.Spec.Rename
import Verif.Spec.Reorder
import Verif.Spec.ReorderCmd
import Verif.Spec.Return
import Verif.Spec.RuleFiles
import Verif.Spec.Rules
import Verif.Spec.RulesAgain
import Verif.Spec.RulesCalls
import Verif.Spec.RulesMerge
import Verif.Spec.RulesMergeCmd
import Verif.Spec.Runs
import Verif.Spec.SameLedgers
import Verif.Spec.Session
import Verif.Spec.SessionMoney
import Verif.Spec.SessionRules
import Verif.Spec.Sources
import Verif.Spec.Tesseract
import Verif.Spec.Together
import Verif.Spec.Transfer
import Verif.Spec.Twice
import Verif.Spec.TwoWriters
import Verif.Spec.TzAbbr
import Verif.Tests.Comment
import Verif.Tests.Importers
import Verif.Tests.Merger
import Verif.Tests.Rules
