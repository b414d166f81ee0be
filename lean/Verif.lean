import Verif.Bytes
import Verif.Conc
import Verif.Logic
import Verif.LogicSound
import Verif.Termination
import Verif.Types
import Verif.StartProg
import Verif.Sym
import Verif.FileSpec
import Verif.StartWP
import Verif.StartThreads
import Verif.StartMetrics
import Verif.StartBuilder
import Verif.StartMain
import Verif.StartSound
import Verif.StartFinal
import Verif.StartAdequacy
import Verif.DumpModel
import Verif.DumpItems
import Verif.DumpSpec
import Verif.DumpFile
import Verif.DumpDescribe
import Verif.DumpWrite
import Verif.Hash
import Verif.Values
import Verif.RegistryModel
import Verif.Registry
import Verif.Publish
import Verif.ValueModel
import Verif.Live
import Verif.LiveOps
import Verif.History
import Verif.FileUnique
import Verif.StartStable
import Verif.Sample
import Verif.PropsStart
import Verif.PropsFile
import Verif.PropsDump
import Verif.PropsLive
import Verif.PropsWriter
import Verif.Float32
import Verif.PropsValues
import Verif.Regex
import Verif.Parse
import Verif.PropsRegistry
import Verif.PropsConstruct
import Verif.MetricOps
import Verif.PropsMetrics
import Verif.Units
import Verif.PropsUnits
import Verif.Config
import Verif.PropsConfig
import Verif.Client
import Verif.ClientLemmas
import Verif.PropsClient
import Verif.Mutex
import Verif.MutexSound
import Verif.MutexOps
import Verif.MutexLive
import Verif.MutexProgress
import Verif.PropsConc
import Verif.StartDoom
import Verif.PropsEdge
import Verif.RegConc
import Verif.RegConcInv
import Verif.RegConcLive
import Verif.PropsRegConc
import Verif.SetStart
import Verif.PropsSetStart
import Verif.Clients
import Verif.PropsClients
import Verif.ClientsShared
import Verif.PropsShared
import Verif.Print
import Verif.PrintText
import Verif.UnitText
import Verif.PropsPrint
import Verif.PrintWhole
import Verif.PropsWhole
import Verif.PropsIdent
import Verif.Ieee
import Verif.IeeeRound
import Verif.IeeeOps
import Verif.PropsIeee
import Verif.StartLen
import Verif.StartReg
import Verif.PropsStartReg
import Verif.PropsLeak
import Verif.LibText
import Verif.PropsLibText
import Verif.UnitShare
import Verif.PropsUnitShare
import Verif.DumpOutcomes
import Verif.PropsAccept
import Verif.PropsReader
import Verif.PropsRace
import Verif.PropsExact
import Verif.PropsDeterm
import Verif.Machine
import Verif.PropsMachine
import Verif.StopRace
import Verif.PropsStopRace
import Verif.PropsReaders
import Verif.PropsTwoClients
import Verif.PropsRegRace
import Verif.Tool
import Verif.PropsTool
import Verif.Moment
import Verif.PropsMoment
import Verif.ObjText
import Verif.PropsObjText
import Verif.Examples
import Verif.ExampleLemmas
import Verif.PropsExamples
import Verif.PropsLastSet
import Verif.PropsByString
import Verif.ByStrConc
import Verif.ByStrConcInv
import Verif.ByStrConcSim
import Verif.ByStrConcLive
import Verif.PropsByStrConc
import Verif.NilUnit
import Verif.NilUnitSim
import Verif.NilUnitStart
import Verif.PropsNil
import Verif.HashLemmas
import Verif.PropsIds
import Verif.PropsRestart
import Verif.Must
import Verif.PropsMust
import Verif.Int32
import Verif.PropsInt32
import Verif.Writers
import Verif.PropsBytes
import Verif.PropsKeep
import Verif.Cut
import Verif.PropsCut
import Verif.PropsDamage
import Verif.PropsDetermExact
import Verif.PropsDoc
import Verif.PropsSameFile
import Verif.PropsConcMono
import Verif.PropsConcMonoVec
import Verif.PropsConcSumVec
import Verif.PropsConcOrder
import Verif.PropsConcTimer
import Verif.PropsEqualSet
