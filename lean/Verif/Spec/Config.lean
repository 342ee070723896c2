import Verif.Model.Config

/-! # What the options of a node should mean -/

namespace Flare

/-- The value that was given last, or the old one. -/
def lastGiven {α : Type} : List (Option α) → α → α
  | [], a => a
  | none :: l, a => lastGiven l a
  | some b :: l, _ => lastGiven l b

/-- The name is `async` or `sync`, or there is none. -/
def Given.TypeOk (g : Given) : Prop :=
  ∀ s, g.replicationType = some s → s = ascii "async" ∨ s = ascii "sync"

/-- The name is `duplicate` or `forward`, or there is none. -/
def Given.ModeOk (g : Given) : Prop :=
  ∀ s, g.crMode = some s → s = ascii "duplicate" ∨ s = ascii "forward"

/-- The index servers can be told from the options. -/
def Given.IndexOk (g : Given) : Prop := ∃ v, indexServersOf g = some v

/-- A file without mistakes. -/
def Given.Valid (g : Given) : Prop := g.TypeOk ∧ g.IndexOk ∧ g.ModeOk

/-- The file names every option that a reload deals with. -/
def Given.Complete (g : Given) : Prop :=
  g.logFacility ≠ none ∧ g.maxConnection ≠ none ∧ g.noreplyWindowLimit ≠ none ∧ g.netReadTimeout ≠ none ∧
  g.reconInterval ≠ none ∧ g.reconBwlimit ≠ none ∧ g.replicationType ≠ none ∧ g.threadPoolSize ≠ none ∧
  g.maxTotalThreadQueue ≠ none ∧ g.watchEnabled ≠ none ∧ g.watchInterval ≠ none ∧ g.watchWarn ≠ none ∧
  g.watchPingNg ≠ none ∧ g.crEnabled ≠ none ∧ g.crName ≠ none ∧ g.crPort ≠ none ∧ g.crMode ≠ none

/-- None of these options is given. -/
def Given.OnlyFixed (g : Given) : Prop :=
  g.indexServers = none ∧ g.indexServerName = none ∧ g.indexServerPort = none ∧
  g.logFacility = none ∧ g.maxConnection = none ∧ g.noreplyWindowLimit = none ∧ g.netReadTimeout = none ∧
  g.reconInterval = none ∧ g.reconBwlimit = none ∧ g.replicationType = none ∧ g.threadPoolSize = none ∧
  g.maxTotalThreadQueue = none ∧ g.watchEnabled = none ∧ g.watchInterval = none ∧ g.watchWarn = none ∧
  g.watchPingNg = none ∧ g.crEnabled = none ∧ g.crName = none ∧ g.crPort = none ∧ g.crMode = none

/-- The files of a history that could be read and that satisfy a condition. -/
noncomputable def filesWith (P : Given → Prop) (fs : List (Option Given)) : List Given :=
  fs.filterMap fun f => f.bind fun g => @ite _ (P g) (Classical.propDecidable _) (some g) none

/-- How an index server is written: blanks, name, port. -/
structure IndexText where
  blanks : Bytes
  name : Bytes
  port : Nat
  deriving DecidableEq, Repr

def IndexText.Ok (t : IndexText) : Prop :=
  (∀ c ∈ t.blanks, c ∈ ([9, 10, 11, 12, 13, 32] : Bytes)) ∧ t.name ≠ [] ∧
    (∀ c ∈ t.name, c ∉ ([9, 10, 11, 12, 13, 32, 44, 58] : Bytes)) ∧ t.port < 2147483648

def IndexText.text (t : IndexText) : Bytes := t.blanks ++ t.name ++ 58 :: decimal t.port

/-- The entries, with a comma after each but the last. -/
def indexText : List IndexText → Bytes
  | [] => []
  | [t] => t.text
  | t :: ts => t.text ++ 44 :: indexText ts

/-- How often the file had been changed when the last signal came. -/
def announced (es : List HupEvent) : Nat :=
  (es.reverse.dropWhile (· ≠ .hup)).countP (· = .edit)

/-- No signal comes while the file is being applied. -/
def hupCalm (s : HupState) : List HupEvent → Prop
  | [] => True
  | e :: es => (e = .hup → s.busy = false) ∧ hupCalm (hupStep s e) es

end Flare
