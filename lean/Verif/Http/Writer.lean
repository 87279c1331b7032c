import Verif.Basic

/-!
# The wrapped response writer and body (plugin/ochttp/server.go:226-455, wrapped_body.go)

A value that implements a set of interfaces is the list of its embedded interfaces with the value that
provides each: a Go struct with embedded interfaces implements exactly the embedded interfaces' methods,
and forwards each to the embedded value. The table is transcribed case by case from the source.
-/

namespace Verif.Http
open Verif

/-- The interfaces the switch distinguishes. -/
inductive Iface where
  | responseWriter | hijacker | closeNotifier | pusher | flusher | readerFrom
  deriving DecidableEq, Repr

/-- The values embedded in the returned struct: the tracker itself, and the original writer under the
interface it was asserted to, server.go:234-238. -/
inductive Provider where
  | t | hj | cn | pu | fl | rf
  deriving DecidableEq, Repr

/-- The interface type of each of these variables, server.go:234-238. -/
def Provider.iface : Provider → Iface
  | .t => .responseWriter
  | .hj => .hijacker
  | .cn => .closeNotifier
  | .pu => .pusher
  | .fl => .flusher
  | .rf => .readerFrom

/-- `wrappedResponseWriter`, plugin/ochttp/server.go:232-455: the embedded interfaces and the values
given for them, in order. -/
def wrappedResponseWriter (i0 i1 i2 i3 i4 : Bool) : List (Iface × Provider) :=
  if !i0 && !i1 && !i2 && !i3 && !i4 then
    [(.responseWriter, .t)]
  else if !i0 && !i1 && !i2 && !i3 && i4 then
    [(.responseWriter, .t), (.readerFrom, .rf)]
  else if !i0 && !i1 && !i2 && i3 && !i4 then
    [(.responseWriter, .t), (.flusher, .fl)]
  else if !i0 && !i1 && !i2 && i3 && i4 then
    [(.responseWriter, .t), (.flusher, .fl), (.readerFrom, .rf)]
  else if !i0 && !i1 && i2 && !i3 && !i4 then
    [(.responseWriter, .t), (.pusher, .pu)]
  else if !i0 && !i1 && i2 && !i3 && i4 then
    [(.responseWriter, .t), (.pusher, .pu), (.readerFrom, .rf)]
  else if !i0 && !i1 && i2 && i3 && !i4 then
    [(.responseWriter, .t), (.pusher, .pu), (.flusher, .fl)]
  else if !i0 && !i1 && i2 && i3 && i4 then
    [(.responseWriter, .t), (.pusher, .pu), (.flusher, .fl), (.readerFrom, .rf)]
  else if !i0 && i1 && !i2 && !i3 && !i4 then
    [(.responseWriter, .t), (.closeNotifier, .cn)]
  else if !i0 && i1 && !i2 && !i3 && i4 then
    [(.responseWriter, .t), (.closeNotifier, .cn), (.readerFrom, .rf)]
  else if !i0 && i1 && !i2 && i3 && !i4 then
    [(.responseWriter, .t), (.closeNotifier, .cn), (.flusher, .fl)]
  else if !i0 && i1 && !i2 && i3 && i4 then
    [(.responseWriter, .t), (.closeNotifier, .cn), (.flusher, .fl), (.readerFrom, .rf)]
  else if !i0 && i1 && i2 && !i3 && !i4 then
    [(.responseWriter, .t), (.closeNotifier, .cn), (.pusher, .pu)]
  else if !i0 && i1 && i2 && !i3 && i4 then
    [(.responseWriter, .t), (.closeNotifier, .cn), (.pusher, .pu), (.readerFrom, .rf)]
  else if !i0 && i1 && i2 && i3 && !i4 then
    [(.responseWriter, .t), (.closeNotifier, .cn), (.pusher, .pu), (.flusher, .fl)]
  else if !i0 && i1 && i2 && i3 && i4 then
    [(.responseWriter, .t), (.closeNotifier, .cn), (.pusher, .pu), (.flusher, .fl), (.readerFrom, .rf)]
  else if i0 && !i1 && !i2 && !i3 && !i4 then
    [(.responseWriter, .t), (.hijacker, .hj)]
  else if i0 && !i1 && !i2 && !i3 && i4 then
    [(.responseWriter, .t), (.hijacker, .hj), (.readerFrom, .rf)]
  else if i0 && !i1 && !i2 && i3 && !i4 then
    [(.responseWriter, .t), (.hijacker, .hj), (.flusher, .fl)]
  else if i0 && !i1 && !i2 && i3 && i4 then
    [(.responseWriter, .t), (.hijacker, .hj), (.flusher, .fl), (.readerFrom, .rf)]
  else if i0 && !i1 && i2 && !i3 && !i4 then
    [(.responseWriter, .t), (.hijacker, .hj), (.pusher, .pu)]
  else if i0 && !i1 && i2 && !i3 && i4 then
    [(.responseWriter, .t), (.hijacker, .hj), (.pusher, .pu), (.readerFrom, .rf)]
  else if i0 && !i1 && i2 && i3 && !i4 then
    [(.responseWriter, .t), (.hijacker, .hj), (.pusher, .pu), (.flusher, .fl)]
  else if i0 && !i1 && i2 && i3 && i4 then
    [(.responseWriter, .t), (.hijacker, .hj), (.pusher, .pu), (.flusher, .fl), (.readerFrom, .rf)]
  else if i0 && i1 && !i2 && !i3 && !i4 then
    [(.responseWriter, .t), (.hijacker, .hj), (.closeNotifier, .cn)]
  else if i0 && i1 && !i2 && !i3 && i4 then
    [(.responseWriter, .t), (.hijacker, .hj), (.closeNotifier, .cn), (.readerFrom, .rf)]
  else if i0 && i1 && !i2 && i3 && !i4 then
    [(.responseWriter, .t), (.hijacker, .hj), (.closeNotifier, .cn), (.flusher, .fl)]
  else if i0 && i1 && !i2 && i3 && i4 then
    [(.responseWriter, .t), (.hijacker, .hj), (.closeNotifier, .cn), (.flusher, .fl), (.readerFrom, .rf)]
  else if i0 && i1 && i2 && !i3 && !i4 then
    [(.responseWriter, .t), (.hijacker, .hj), (.closeNotifier, .cn), (.pusher, .pu)]
  else if i0 && i1 && i2 && !i3 && i4 then
    [(.responseWriter, .t), (.hijacker, .hj), (.closeNotifier, .cn), (.pusher, .pu), (.readerFrom, .rf)]
  else if i0 && i1 && i2 && i3 && !i4 then
    [(.responseWriter, .t), (.hijacker, .hj), (.closeNotifier, .cn), (.pusher, .pu), (.flusher, .fl)]
  else if i0 && i1 && i2 && i3 && i4 then
    [(.responseWriter, .t), (.hijacker, .hj), (.closeNotifier, .cn), (.pusher, .pu), (.flusher, .fl), (.readerFrom, .rf)]
  else [(.responseWriter, .t)]

/-- `wrappedBody`, plugin/ochttp/wrapped_body.go:24-44: whether the result also embeds the original body
as an `io.Writer`. -/
def wrappedBody (i0 : Bool) : Bool :=
  if !i0 then false
  else if i0 then true
  else false

end Verif.Http
