import Verif.Props.Data
import Verif.Props.Time
import Verif.Props.Keys
import Verif.Props.Merkle
import Verif.Props.Fetch
import Verif.Props.Ingest
import Verif.Props.Progress
import Verif.Props.Commit
import Verif.Props.Uncovered
import Verif.Props.Storage
import Verif.Props.Whole
import Verif.Props.Known
import Verif.Props.Crls
import Verif.Props.Download
import Verif.Props.Issuers
import Verif.Props.Delta
import Verif.Props.Client
import Verif.Props.Publisher
import Verif.Props.Collections
import Verif.Props.Workflow
import Verif.Props.Leaf
import Verif.Props.EndToEnd
import Verif.Props.Operations
import Verif.Props.Flow
import Verif.Props.Signing
import Verif.Model.Audit
import Verif.Props.Audit
import Verif.Props.Disclosed
import Verif.Model.Clean
import Verif.Props.Clean
import Verif.Model.Epoch
import Verif.Props.Epoch
import Verif.Model.Inters
import Verif.Props.Inters
import Verif.Model.Lease
import Verif.Props.Lease
import Verif.Props.System
import Verif.Props.Origin
import Verif.Props.Exit
import Verif.Props.Listing
import Verif.Props.Build
import Verif.Props.Priority
import Verif.Props.Worker
import Verif.Props.Script
import Verif.Props.Der
import Verif.Props.Tiled
import Verif.Props.PublisherMain
import Verif.Props.Json
import Verif.Props.JsonMembers
import Verif.Props.Bincode
import Verif.Props.Pem
import Verif.Props.Growth
import Verif.Props.Query
import Verif.Props.X509
import Verif.Props.X509Flow
import Verif.Props.X509Sound
import Verif.Props.MockCache
import Verif.Props.Csv
import Verif.Props.Memory
import Verif.Props.Config
import Verif.Props.Follow
import Verif.Props.Waiting
import Verif.Props.Launch
import Verif.Props.Duration
import Verif.Props.Url
import Verif.Props.RunTime
import Verif.Props.Target
import Verif.Props.Served
import Verif.Props.Answers
import Verif.Props.World
import Verif.Props.WorldPriority
import Verif.Props.Stats
import Verif.Props.IssuersTool
import Verif.Props.LaunchOptions
