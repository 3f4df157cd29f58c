import Verif.Base
import Verif.IO
import Verif.Proto
import Verif.Spec.Wire
import Verif.ProtoLemmas
import Verif.Prims
import Verif.Curve
import Verif.Sign
import Verif.Encrypt
import Verif.Decrypt
import Verif.Stream
import Verif.Spec.Container
import Verif.Spec.Recipient
import Verif.EncLemmas
import Verif.DecLemmas
import Verif.EncGeneral
import Verif.Session
import Verif.Roundtrip
import Verif.StreamLemmas
import Verif.Demo
import Verif.Props.RoundTrip
import Verif.StreamRead
import Verif.Props.StreamWrite
import Verif.Props.StreamReader
import Verif.DecGeneral
import Verif.HeaderLemmas
import Verif.Props.AnyBody
import Verif.Spec.Adversary
import Verif.Spec.Sender
import Verif.TamperLemmas
import Verif.Props.Tamper
import Verif.Props.Truncate
import Verif.Props.Auth
import Verif.Props.Sender
import Verif.Spec.Curve
import Verif.Prime
import Verif.CurveLemmas
import Verif.Props.Curve
import Verif.Props.Header
import Verif.Props.HeaderAttack
import Verif.Props.Delivery
import Verif.Props.KeySep
import Verif.Props.Secrecy
import Verif.Props.Size
import Verif.Props.Destination
import Verif.Nonce
import Verif.History
import Verif.HistoryNonce
import Verif.Spec.Session
import Verif.HistoryLemmas
import Verif.Props.History
import Verif.Base64
import Verif.Spec.Base64
import Verif.Props.Base64
import Verif.Yaml
import Verif.Ssh
import Verif.Keys
import Verif.Spec.Sign
import Verif.Props.Sign
import Verif.Spec.Ssh
import Verif.SshLemmas
import Verif.Props.Keys
import Verif.Props.PublicKeys
import Verif.Props.AuthKeys
import Verif.Props.SshPriv
import Verif.Files
import Verif.Spec.Files
import Verif.Props.Files
import Verif.Cli
import Verif.Spec.Cli
import Verif.Props.CliVerify
import Verif.Props.CliGen
import Verif.Props.CliOutput
import Verif.Props.CliCrypt
import Verif.Spec.Command
import Verif.Props.CliSelect
import Verif.Props.CliSign
import Verif.Props.CliEnd
import Verif.Props.CliDemo
import Verif.Props.CliTest
import Verif.Props.CliComplete
import Verif.Props.CliDemo2
import Verif.Props.Witness
import Verif.DecHistory
import Verif.Spec.Opening
import Verif.DecHistoryLemmas
import Verif.DecInv
import Verif.Props.DecHistory
import Verif.Props.DecAttack
import Verif.Props.DecCrash
import Verif.Props.DecWitness
import Verif.Main
import Verif.Spec.Program
import Verif.Props.Main
import Verif.Props.MainPw
import Verif.Props.MainEnd
import Verif.Props.MainDemo
import Verif.Props.CliPipe
import Verif.Props.MainPipe
import Verif.Props.MainDemo2
import Verif.KeyObj
import Verif.Spec.KeyObj
import Verif.Props.KeyObj
import Verif.Concurrent
import Verif.Props.Concurrent
import Verif.Spec.Perm
import Verif.Props.Perm
import Verif.Props.PermDemo
import Verif.Random
import Verif.Spec.Random
import Verif.RandomLemmas
import Verif.Props.Random
import Verif.RandomCli
import Verif.Props.RandomCli
import Verif.Props.RandomDemo
import Verif.Props.NonceExact
import Verif.Props.Grammar
import Verif.Props.Accepts
import Verif.Spec.SshKeys
import Verif.Props.SshEnd
import Verif.Props.SshDemo
import Verif.Copy
import Verif.Props.Copy
import Verif.Spec.KeyTexts
import Verif.Props.KeyTexts
import Verif.Props.PrivTexts
import Verif.Props.PrivTextsDemo
import Verif.Props.Success
import Verif.Props.SuccessEnc
import Verif.Props.SuccessDemo
import Verif.Props.Crash
import Verif.Props.CrashDemo
import Verif.Props.ManyRuns
import Verif.Props.ManyRunsDemo
import Verif.Props.AuthExact
import Verif.Props.OpenExact
import Verif.Terminal
import Verif.Props.Terminal
import Verif.Props.Bounds
import Verif.Spec.Edwards
import Verif.Edwards
import Verif.OrderPrime
import Verif.EdwardsBase
import Verif.EdGroup
import Verif.Props.Agreement
import Verif.Spec.Gcm
import Verif.Props.Symmetric
import Verif.Props.Flags
import Verif.Spec.Machine
import Verif.Props.CommandLines
import Verif.Props.CommandLinesDemo
import Verif.Spec.Sha2
import Verif.Spec.Aes
import Verif.Spec.Scrypt
import Verif.Spec.Standard
import Verif.Props.Standards
import Verif.Props.StandardsDemo
import Verif.Spec.Symbolic
import Verif.Props.Symbolic
import Verif.Props.SymbolicAuth
import Verif.Props.SymbolicDemo
import Verif.Props.SymbolicAnon
import Verif.AesInverse
import Verif.Pem
import Verif.Spec.SshText
import Verif.Props.SshText
import Verif.Props.SshTextDemo
import Verif.Props.SymbolicForward
import Verif.Spec.SymbolicHelp
import Verif.Props.SymbolicHelp
import Verif.Spec.TestScript
import Verif.Props.TestScript
import Verif.Props.TestScriptDemo
import Verif.Props.TestScriptSsh
import Verif.Props.TestScriptSshDemo
import Verif.GoPath
import Verif.Spec.Path
import Verif.Props.GoPath
import Verif.Props.GenNames
import Verif.Props.GenNamesDemo
import Verif.Props.Leak
import Verif.Spec.SymbolicTest
import Verif.Props.SymbolicTest
import Verif.Store
import Verif.Spec.Store
import Verif.Spec.Kinds
import Verif.Props.Store
import Verif.Props.Kinds
import Verif.Props.StoreDemo
import Verif.Spec.Retry
import Verif.Props.Retry
import Verif.Spec.OneFile
import Verif.Props.OneFile
import Verif.Spec.Addressee
import Verif.Props.Addressee
import Verif.Spec.Tampered
import Verif.Props.Tampered
import Verif.Props.TamperedDemo
import Verif.Props.OneKey
import Verif.Debug
import Verif.Spec.Debug
import Verif.Props.Debug
import Verif.Spec.Alias
import Verif.Props.Alias
import Verif.Spec.Game
import Verif.Props.Game
import Verif.Spec.Anon
import Verif.Props.Anon
import Verif.Spec.ManyFiles
import Verif.Props.ManyFiles
import Verif.Spec.Forge
import Verif.Props.Forge
import Verif.Spec.Author
import Verif.Props.Author
import Verif.Spec.Outsider
import Verif.Props.Outsider
import Verif.Spec.Reaction
import Verif.Props.Reaction
import Verif.Spec.Asking
import Verif.Props.Asking
import Verif.Spec.Site
import Verif.Props.Site
import Verif.Props.SiteDemo
import Verif.Spec.Clerk
import Verif.Props.Clerk
import Verif.Props.ClerkDemo
import Verif.Spec.Whole
import Verif.Props.Whole
import Verif.Spec.Released
import Verif.Props.Released
import Verif.Props.ReleasedDemo
import Verif.Spec.Rewritten
import Verif.Props.Rewritten
import Verif.Props.RewrittenDemo
