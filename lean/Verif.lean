import Verif.Codec.Props
import Verif.Codec.PropsValid
import Verif.Wire.Props
import Verif.Stats.Props
import Verif.LimVec.Props
import Verif.Shuffle.Props
import Verif.Shuffle.PropsHash
import Verif.Pool.Props
import Verif.Merkle.Props
import Verif.Merkle.PropsPeak
import Verif.Pvm.PropsAlu
import Verif.Pvm.PropsMem
import Verif.Pvm.PropsLayout
import Verif.Pvm.PropsInterp
import Verif.Pvm.PropsLoad
import Verif.Pvm.PropsStep
import Verif.Acc.Props
import Verif.Acc.PropsStep
import Verif.Acc.PropsParallel
import Verif.Svc.PropsRef
import Verif.Svc.PropsAcc
import Verif.Svc.PropsWindow
import Verif.Svc.PropsMerge
import Verif.Svc.PropsAssign
import Verif.Svc.PropsLife
import Verif.Refine.Props
import Verif.Da.Props
import Verif.Da.PropsAvail
import Verif.Da.PropsBundle
import Verif.Wr.PropsLimits
import Verif.Wr.Props
import Verif.Fetch.Props
import Verif.Comp.Props
import Verif.Entry.Props
import Verif.Entry.PropsRun
import Verif.Chain.Props
import Verif.Fork.Props
import Verif.Conc.Props
import Verif.Host.Props
import Verif.Net.PropsFuzz
import Verif.Net.PropsGossip
import Verif.Duty.Props
import Verif.Duty.PropsTasks
import Verif.Safrole.Props
import Verif.Judge.Props
import Verif.Reports.Props
import Verif.Ring.Props
import Verif.Ancestors.Props
import Verif.StateCache.Props
import Verif.CachedDb.Props
import Verif.StateKeys.Props
import Verif.Trie.PropsNode
import Verif.Trie.Props
import Verif.Store.Props
import Verif.Store.PropsTyped
import Verif.Readers.Model
import Verif.Readers.Spec
import Verif.Readers.Lemmas
import Verif.Readers.Lemmas2
import Verif.Readers.Props
import Verif.Announce.Props
import Verif.Dial.Props
import Verif.Dial.PropsSlot
import Verif.Restart.Props
import Verif.Restart.PropsCatch
import Verif.Announce.PropsChain
import Verif.Refine.PropsPages
import Verif.Refine.PropsGas
import Verif.HexText.Model
import Verif.HexText.Spec
import Verif.HexText.Lemmas
import Verif.HexText.Props
import Verif.Stf.Props
import Verif.Delta.Props
import Verif.Delta.PropsAcct
import Verif.Node.Props
import Verif.Abort.PropsChain
import Verif.Node.PropsKept
