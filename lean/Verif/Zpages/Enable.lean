import Verif.Plugins.Views
import Verif.Zpages.Rpcz

/-!
# What enables the RPC page (zpages/zpages.go, zpages/rpcz.go)

How the pages reach the mux and the file server are not modelled.
-/

namespace Verif.Zpages.Enable
open Verif Verif.View Verif.Plugins.Grpc Verif.Zpages.Rpcz

/-- The keys of `viewType`, zpages/rpcz.go:42-55, in the order of the source. -/
def rpcViews : List (ViewDef × RView) :=
  [(clientCompletedRPCsView, .clientCompletedRPCs), (clientSentBytesPerRPCView, .clientSentBytes),
   (clientSentMessagesPerRPCView, .clientSentMessages), (clientReceivedBytesPerRPCView, .clientReceivedBytes),
   (clientReceivedMessagesPerRPCView, .clientReceivedMessages), (clientRoundtripLatencyView, .clientRoundtripLatency),
   (serverCompletedRPCsView, .serverCompletedRPCs), (serverReceivedBytesPerRPCView, .serverReceivedBytes),
   (serverReceivedMessagesPerRPCView, .serverReceivedMessages), (serverSentBytesPerRPCView, .serverSentBytes),
   (serverSentMessagesPerRPCView, .serverSentMessages), (serverLatencyView, .serverLatency)]

/-- Which key of `viewType` the view of the data is, zpages/rpcz.go:200. The map is by address: the model compares
addresses and contents, as nothing changes a predefined view. -/
def rviewOf (v : ViewDef) : RView :=
  match rpcViews.find? fun p => decide (p.1 = v) with
  | some p => p.2
  | none => .other

/-- `registerRPCViews`, zpages/rpcz.go:58-67: the commands sent, for the order in which the loop takes the map. `z` is the
value `snapExporter{}`, which is the same at every use. That a refused `Register` is logged is not modelled. -/
def registerRPCViews (now : Int) (order : List ViewDef) (z : Nat) : List Cmd := [.register now order, .addExporter z]

/-- `enable`, zpages/zpages.go:63-68: the commands sent, and whether the once is used up. The flag of the span store is not
modelled here. -/
def enable (done : Bool) (now : Int) (order : List ViewDef) (z : Nat) : List Cmd × Bool :=
  if done then ([], true) else (registerRPCViews now order z, true)

/-- The calls of `Handle`, zpages/zpages.go:49-57, each of which calls `enable` first; each with the time and the order it would
take the map in. -/
def handles (z : Nat) : Bool → List (Int × List ViewDef) → List Cmd
  | _, [] => []
  | done, (now, order) :: l => (enable done now order z).1 ++ handles z (enable done now order z).2 l

/-- What `ExportView` of the page is given, zpages/rpcz.go:199-206, when the program has this age. -/
def handed (e : View.Export) (age : F64) : Rpcz.Export := ⟨rviewOf e.view, e.rows.map fun r => ⟨r.tags, r.data⟩, age⟩

end Verif.Zpages.Enable
