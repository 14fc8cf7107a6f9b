import Verif.Axioms
import Verif.Lemmas.Added
import Verif.Lemmas.Address
import Verif.Lemmas.Again
import Verif.Lemmas.Announce
import Verif.Lemmas.Arith
import Verif.Lemmas.Arr
import Verif.Lemmas.Bfs
import Verif.Lemmas.BfsIx
import Verif.Lemmas.Bogon
import Verif.Lemmas.BogonEnds
import Verif.Lemmas.BogonExact
import Verif.Lemmas.BogonGaps
import Verif.Lemmas.BogonLife
import Verif.Lemmas.Clean
import Verif.Lemmas.CliText
import Verif.Lemmas.Codec
import Verif.Lemmas.Compare
import Verif.Lemmas.Dates
import Verif.Lemmas.Dedup
import Verif.Lemmas.Depends
import Verif.Lemmas.Dfs
import Verif.Lemmas.Drain
import Verif.Lemmas.DrainSound
import Verif.Lemmas.Dump
import Verif.Lemmas.DumpRead
import Verif.Lemmas.Enum
import Verif.Lemmas.EnumLife
import Verif.Lemmas.Exclude
import Verif.Lemmas.ExcludeList
import Verif.Lemmas.ExcludeOdd
import Verif.Lemmas.Feeds
import Verif.Lemmas.File
import Verif.Lemmas.FlatEnds
import Verif.Lemmas.Flatten
import Verif.Lemmas.Formats
import Verif.Lemmas.GeofeedLines
import Verif.Lemmas.GeofeedUse
import Verif.Lemmas.Geofeeds
import Verif.Lemmas.Holds
import Verif.Lemmas.Import
import Verif.Lemmas.Join
import Verif.Lemmas.Lifetime
import Verif.Lemmas.Logging
import Verif.Lemmas.Lookup
import Verif.Lemmas.Lpm
import Verif.Lemmas.Mask
import Verif.Lemmas.Merge
import Verif.Lemmas.Need
import Verif.Lemmas.Network
import Verif.Lemmas.NetworkList
import Verif.Lemmas.Objects
import Verif.Lemmas.ObjectsApi
import Verif.Lemmas.ObjectsNew
import Verif.Lemmas.ObjectsStep
import Verif.Lemmas.Odd
import Verif.Lemmas.Order
import Verif.Lemmas.Overrides
import Verif.Lemmas.Path
import Verif.Lemmas.Range
import Verif.Lemmas.RangeNet
import Verif.Lemmas.ReadIo
import Verif.Lemmas.Retrieve
import Verif.Lemmas.Reverse
import Verif.Lemmas.Safe
import Verif.Lemmas.Size
import Verif.Lemmas.Steps
import Verif.Lemmas.Stringpool
import Verif.Lemmas.Summarize
import Verif.Lemmas.Tasks
import Verif.Lemmas.Terminate
import Verif.Lemmas.Text
import Verif.Lemmas.TextIpv6
import Verif.Lemmas.TextNtop
import Verif.Lemmas.TextParse
import Verif.Lemmas.Tree
import Verif.Lemmas.TreeMerge
import Verif.Lemmas.Trie
import Verif.Lemmas.View
import Verif.Lemmas.Whois
import Verif.Lemmas.WhoisBlocks
import Verif.Lemmas.WhoisLines
import Verif.Lemmas.WhoisObjects
import Verif.Lemmas.WhoisParts
import Verif.Lemmas.WhoisText
import Verif.Lemmas.WriteIo
import Verif.Lemmas.WriteLimit
import Verif.Lemmas.Writer
import Verif.Lemmas.Written
import Verif.Model.Address
import Verif.Model.Announce
import Verif.Model.Arr
import Verif.Model.Basic
import Verif.Model.Bindings
import Verif.Model.Bogon
import Verif.Model.Cli
import Verif.Model.CliText
import Verif.Model.Commands
import Verif.Model.Compare
import Verif.Model.CountryCode
import Verif.Model.Database
import Verif.Model.Dates
import Verif.Model.Dump
import Verif.Model.EnumLife
import Verif.Model.Enumerator
import Verif.Model.Export
import Verif.Model.Feeds
import Verif.Model.Flatten
import Verif.Model.Format
import Verif.Model.Formats
import Verif.Model.Geofeeds
import Verif.Model.Import
import Verif.Model.Lifetime
import Verif.Model.Listing
import Verif.Model.Logging
import Verif.Model.Names
import Verif.Model.Network
import Verif.Model.NetworkList
import Verif.Model.Objects
import Verif.Model.ReadIo
import Verif.Model.Resolv
import Verif.Model.Retrieve
import Verif.Model.Scripts
import Verif.Model.Stringpool
import Verif.Model.Tasks
import Verif.Model.Text
import Verif.Model.Tree
import Verif.Model.Update
import Verif.Model.Whois
import Verif.Model.WriteIo
import Verif.Model.Writer
import Verif.Props.Address
import Verif.Props.Again
import Verif.Props.Agree
import Verif.Props.Announce
import Verif.Props.Arr
import Verif.Props.Bindings
import Verif.Props.Bogon
import Verif.Props.Cli
import Verif.Props.CliText
import Verif.Props.Commands
import Verif.Props.Compare
import Verif.Props.Copy
import Verif.Props.Dates
import Verif.Props.Depends
import Verif.Props.Dump
import Verif.Props.Enum
import Verif.Props.EnumLife
import Verif.Props.ExcludeOdd
import Verif.Props.Export
import Verif.Props.ExportAgree
import Verif.Props.Feeds
import Verif.Props.File
import Verif.Props.FlatEnds
import Verif.Props.Flatten
import Verif.Props.Formats
import Verif.Props.Geofeeds
import Verif.Props.Import
import Verif.Props.Join
import Verif.Props.Keys
import Verif.Props.Large
import Verif.Props.Lifetime
import Verif.Props.Listing
import Verif.Props.ListingBogon
import Verif.Props.Local
import Verif.Props.Logging
import Verif.Props.Lookup
import Verif.Props.Names
import Verif.Props.Network
import Verif.Props.NetworkList
import Verif.Props.Networks
import Verif.Props.NetworksSound
import Verif.Props.Objects
import Verif.Props.Order
import Verif.Props.ReadIo
import Verif.Props.Resolv
import Verif.Props.Retrieve
import Verif.Props.Safe
import Verif.Props.SafeLookup
import Verif.Props.Scripts
import Verif.Props.Signature
import Verif.Props.Size
import Verif.Props.Steps
import Verif.Props.Stringpool
import Verif.Props.Summarize
import Verif.Props.Tasks
import Verif.Props.Text
import Verif.Props.TextExact
import Verif.Props.Tree
import Verif.Props.Trie
import Verif.Props.Update
import Verif.Props.Whois
import Verif.Props.WriteIo
import Verif.Spec.Address
import Verif.Spec.Announce
import Verif.Spec.Bindings
import Verif.Spec.Bogon
import Verif.Spec.CliText
import Verif.Spec.Compare
import Verif.Spec.Dates
import Verif.Spec.Dump
import Verif.Spec.Enum
import Verif.Spec.EnumLife
import Verif.Spec.Export
import Verif.Spec.Feeds
import Verif.Spec.File
import Verif.Spec.Formats
import Verif.Spec.Geofeeds
import Verif.Spec.Import
import Verif.Spec.Join
import Verif.Spec.Lifetime
import Verif.Spec.Listing
import Verif.Spec.Logging
import Verif.Spec.Names
import Verif.Spec.Network
import Verif.Spec.Number
import Verif.Spec.Objects
import Verif.Spec.ReadIo
import Verif.Spec.Retrieve
import Verif.Spec.Safe
import Verif.Spec.Scripts
import Verif.Spec.Size
import Verif.Spec.Summarize
import Verif.Spec.Tasks
import Verif.Spec.Text
import Verif.Spec.Tree
import Verif.Spec.Update
import Verif.Spec.Whois
import Verif.Spec.WriteIo
import Verif.Spec.Writer
