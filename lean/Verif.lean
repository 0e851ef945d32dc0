import Verif.Props.Amount
import Verif.Props.Invoice
import Verif.Props.Merge
import Verif.Props.Index
import Verif.Props.State
import Verif.Props.Stash
import Verif.Props.StoreTx
import Verif.Props.Stock
import Verif.Props.Iface
import Verif.Props.Builder
import Verif.Props.BuilderAccept
import Verif.Model.Batch
import Verif.Model.Compose
import Verif.Spec.Compose
import Verif.Lemmas.Spent
import Verif.Lemmas.Compose
import Verif.Lemmas.Paid
import Verif.Lemmas.Blank
import Verif.Lemmas.ComposeErr
import Verif.Spec.PayWorld
import Verif.Props.Compose
import Verif.Props.Blank
import Verif.Lemmas.Batch
import Verif.Props.Batch
import Verif.Props.Abort
import Verif.Model.History
import Verif.Spec.History
import Verif.Lemmas.History
import Verif.Props.History
import Verif.Model.Indexed
import Verif.Spec.Indexed
import Verif.Lemmas.Indexed
import Verif.Props.Indexed
import Verif.Props.Pairing
import Verif.Model.File
import Verif.Spec.File
import Verif.Props.File
import Verif.Model.Suppl
import Verif.Props.Suppl
import Verif.Model.Container
import Verif.Spec.Container
import Verif.Props.ContainerId
import Verif.Props.Validate
import Verif.Spec.Usable
import Verif.Lemmas.Usable
import Verif.Lemmas.UsableRec
import Verif.Lemmas.UsableStock
import Verif.Lemmas.UsableConsign
import Verif.Lemmas.UsableHist
import Verif.Lemmas.GlobalsKept
import Verif.Props.Usable
import Verif.Props.Specs
import Verif.Spec.Receive
import Verif.Lemmas.ReceiveIndex
import Verif.Lemmas.ReceiveState
import Verif.Lemmas.ReceiveStash
import Verif.Lemmas.ReceiveReveal
import Verif.Props.Receive
import Verif.Lemmas.PassStore
import Verif.Spec.Pass
import Verif.Lemmas.Pass
import Verif.Props.Pass
import Verif.Lemmas.Arrive
import Verif.Props.Arrive
import Verif.Spec.Shown
import Verif.Lemmas.Shown
import Verif.Props.Shown
import Verif.Props.Export
import Verif.Model.Open
import Verif.Spec.Open
import Verif.Lemmas.Open
import Verif.Props.Open
import Verif.Lemmas.ExportSchema
import Verif.Props.ExportSchema
import Verif.Spec.Recover
import Verif.Lemmas.RecoverStash
import Verif.Lemmas.Recover
import Verif.Props.Recover
import Verif.Spec.Evolve
import Verif.Lemmas.Evolve
import Verif.Props.Evolve
import Verif.Model.Issue
import Verif.Spec.Issue
import Verif.Spec.IssueWorld
import Verif.Lemmas.Issue
import Verif.Props.Issue
import Verif.Spec.Resume
import Verif.Spec.StoreCodecs
import Verif.Lemmas.Resume
import Verif.Lemmas.ResumeState
import Verif.Lemmas.ResumeStock
import Verif.Props.Resume
import Verif.Spec.Again
import Verif.Lemmas.AgainMerge
import Verif.Lemmas.AgainStash
import Verif.Lemmas.AgainKit
import Verif.Lemmas.AgainStock
import Verif.Props.Again
import Verif.Spec.Onward
import Verif.Lemmas.Onward
import Verif.Props.Onward
import Verif.Model.Info
import Verif.Spec.Info
import Verif.Lemmas.Info
import Verif.Props.Info
import Verif.Model.Contractum
import Verif.Spec.Contractum
import Verif.Lemmas.Contractum
import Verif.Lemmas.ContractumBody
import Verif.Lemmas.ContractumText
import Verif.Props.Contractum
import Verif.Model.StrictVal
import Verif.Spec.StrictVal
import Verif.Lemmas.StrictVal
import Verif.Props.StrictVal
import Verif.Spec.Payment
import Verif.Lemmas.Payment
import Verif.Spec.PaidWorld
import Verif.Props.Payment
import Verif.Spec.Limits
import Verif.Lemmas.Limits
import Verif.Props.Limits
import Verif.Spec.Change
import Verif.Spec.VoutWorld
import Verif.Lemmas.Change
import Verif.Props.Change
import Verif.Spec.Kept
import Verif.Spec.TokenWorld
import Verif.Lemmas.Kept
import Verif.Props.Kept
import Verif.Spec.Payable
import Verif.Lemmas.Payable
import Verif.Props.Payable
import Verif.Spec.Consume
import Verif.Lemmas.Consume
import Verif.Lemmas.Targets
import Verif.Props.Consume
import Verif.Spec.Settle
import Verif.Lemmas.Settle
import Verif.Props.Settle
import Verif.Lemmas.SettleOut
import Verif.Props.SettleOut
import Verif.Spec.Answer
import Verif.Spec.Source
import Verif.Lemmas.Answer
import Verif.Lemmas.Source
import Verif.Props.Answer
import Verif.Props.Source
import Verif.Lemmas.StashSource
import Verif.Spec.Conform
import Verif.Lemmas.Conform
import Verif.Lemmas.Honest
import Verif.Lemmas.Network
import Verif.Props.Honest
import Verif.Props.Network
import Verif.Props.NetworkOut
import Verif.Model.Restart
import Verif.Spec.Restart
import Verif.Lemmas.Restart
import Verif.Props.Restart
import Verif.Props.ResumeAgain
import Verif.Spec.Supply
import Verif.Lemmas.Supply
import Verif.Props.Supply
import Verif.Spec.Conserve
import Verif.Lemmas.Conserve
import Verif.Props.Conserve
import Verif.Spec.Agree
import Verif.Lemmas.Agree
import Verif.Props.Agree
import Verif.Spec.Single
import Verif.Lemmas.Single
import Verif.Props.Single
import Verif.Lemmas.Refresh
import Verif.Props.Refresh
import Verif.Model.Compare
import Verif.Spec.Compare
import Verif.Lemmas.Compare
import Verif.Props.Compare
import Verif.Props.Tapret
import Verif.Props.Readers
