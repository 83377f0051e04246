/-
What the receiver of a worker channel is to see, in terms of what was sent.
-/
namespace Sid.Spec.Chan

/-- A message: data with, possibly, a file passed along (`some none`: passing was asked for without a file), or the word that the
    worker has finished. -/
inductive Sent where
  | data (bytes : List UInt8) (file : Option (Option Nat))
  | finished
deriving DecidableEq, Repr

/-- What the callback of the receiver is given for a message: the bytes, behind them the configured suffix; files only arrive over a
    socket.  The word of having finished is for the proxy only. -/
inductive Seen where
  | callback (bytes : List UInt8) (file : Option (Option Nat))
  | finished
deriving DecidableEq, Repr

/-- the messages seen for a message sent -/
def expect (proxy socket : Bool) (suffix : List UInt8) : Sent → List Seen
  | .data b f => [.callback (b ++ suffix) (if socket then f else none)]
  | .finished => if proxy then [.finished] else []

/-- the messages seen for a sequence of messages -/
def expectAll (proxy socket : Bool) (suffix : List UInt8) (l : List Sent) : List Seen := l.flatMap (expect proxy socket suffix)

end Sid.Spec.Chan
