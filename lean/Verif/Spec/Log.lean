import Verif.Spec.Consumer
import Verif.Spec.Journal
/-!
# Specification: a log that is written in sessions, each of which may be cut short

A session opens the log: it takes the tags from it that are whole and drops what is behind them. Then it serializes
its tags to the end of the log until it is done or a call fails; a crash is a call that fails after part of its data.
-/
namespace Verif.Spec
variable {P : Type}

structure Session (P : Type) where
  /-- The tags the session set out to write. -/
  tags : List (Tag P)
  /-- For how many of them, from the first, `serialize` returned `Ok`. -/
  reported : Nat

variable [TagPayload P] [Env]

/-- The tags in the log, and what is behind them. -/
def openLog (e : Engine P) (content : Bytes) : Consumer P := Consumer.start.feed e content

/-- The part of the log that consists of whole tags. -/
def wholeTags (e : Engine P) (content : Bytes) : Bytes :=
  content.take (content.length - (openLog e content).buffer.length)

/-- The sessions so far and the content of the log after them.  Each session may use a writer of its own, which fails
whenever it likes. -/
inductive LogHistory (e : Engine P) : List (Session P) → Bytes → Prop where
  | empty : LogHistory e [] []
  | session {ss : List (Session P)} {content : Bytes} (h : LogHistory e ss content) {ω : Type} [Writer ω]
      (J : Journal ω) (w : ω) (ok : J.ok w) (start : J.out w = wholeTags e content) (ts : List (Tag P)) :
      LogHistory e (ss ++ [⟨ts, (appendTags ts w).1⟩]) (J.out (appendTags ts w).2)

end Verif.Spec
