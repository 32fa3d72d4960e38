import Verif.Model.Pool
/-!
# What the histories of one actor pool have to satisfy

Written from the English properties C22, C48, over the events and labels only.
-/
namespace Xoscar.Pool

/-! ## Specification: which actor is alive under an id, from the history of events -/

/-- one event's effect on who is alive under `u` -/
def liveStep (u : Uid) (o : Option Inst) : Ev → Option Inst
  | .registered _ v i => if v = u then some i else o
  | .removed _ v _ => if v = u then none else o
  | _ => o

/-- the actor alive under `u` after a history -/
def live (u : Uid) (log : List Ev) : Option Inst := log.foldl (liveStep u) none

/-- what each event says about the actors alive before it -/
def EvOk (past : List Ev) : Ev → Prop
  | .registered _ u i => live u past = none ∧ ∀ t v, Ev.registered t v i ∉ past
  | .removed _ u i => live u past = some i
  | .refused _ u => ∃ i, live u past = some i
  | .hasAns _ u b => b = (live u past).isSome
  | .missing _ u => live u past = none
  | .found _ u i => live u past = some i
  | .preDestroy _ u i => live u past = some i
  | .replied _ _ _ => True

/-- what a reply other than "could not be sent" tells, for each kind of request -/
def Means (log : List Ev) (t : Tid) : Req → Reply → Prop
  | .create u c, r =>
      (r = .error .alreadyExist ∧ Ev.refused t u ∈ log) ∨
      (c = false ∧ r = .error (.user 0)) ∨
      (c = true ∧ ∃ i, Ev.registered t u i ∈ log ∧ (r = .actorRef u ∨ (∃ n, r = .error (.user n)) ∨ r = .error .cancelled))
  | .has u, r => ∃ b, r = .bool b ∧ Ev.hasAns t u b ∈ log
  | .destroy u, r =>
      (r = .error .notExist ∧ Ev.missing t u ∈ log) ∨
      (∃ i, Ev.preDestroy t u i ∈ log ∧
        ((∃ i', r = .uid u ∧ Ev.removed t u i' ∈ log) ∨ r = .error .keyError ∨ (∃ n, r = .error (.user n)) ∨ r = .error .cancelled))
  | .ref u, r => (r = .error .notExist ∧ Ev.missing t u ∈ log) ∨ (r = .actorRef u ∧ ∃ i, Ev.found t u i ∈ log)
  | .send u, r =>
      (r = .error .notExist ∧ Ev.missing t u ∈ log) ∨
      (∃ i, Ev.found t u i ∈ log ∧ ((∃ n, r = .value n) ∨ (∃ n, r = .error (.user n)) ∨ r = .error .cancelled))
  | .tell u, r =>
      (r = .error .notExist ∧ Ev.missing t u ∈ log) ∨
      (∃ i, Ev.found t u i ∈ log ∧ (r = .none ∨ r = .error .cancelled))
  | .cancel _, r => r = .bool true ∨ r = .error .cannotCancel
  | .other, r => (∃ n, r = .value n) ∨ (∃ n, r = .error (.user n)) ∨ r = .error .cancelled
  | .reply, _ => False

/-- how the user code awaited by task `t` ended, from the history -/
def outcomes (t : Tid) (ls : List Label) : List Out :=
  ls.filterMap (fun l => match l with
    | .finish t' o => if t' = t then some o else none
    | _ => none)

/-- what is answered when the code awaited for a request ended like this -/
def Answer : Req → Out → Reply → Prop
  | _, .exc n, r => r = .error (.user n)
  | _, .cancelled, r => r = .error .cancelled
  | .create u _, .ok _, r => r = .actorRef u
  | .destroy u, .ok _, r => r = .uid u ∨ r = .error .keyError
  | .send _, .ok n, r => r = .value n
  | .tell _, .ok _, r => r = .none
  | .other, .ok n, r => r = .value n
  | _, .ok _, _ => False

/-- what can be answered without awaiting anything -/
def AtOnce : Req → Reply → Prop
  | .create _ c, r => r = .error .alreadyExist ∨ (c = false ∧ r = .error (.user 0))
  | .has _, r => r = .bool true ∨ r = .bool false
  | .destroy _, r => r = .error .notExist
  | .ref u, r => r = .error .notExist ∨ r = .actorRef u
  | .send _, r => r = .error .notExist
  | .tell _, r => r = .error .notExist
  | .cancel _, r => r = .bool true ∨ r = .error .cannotCancel
  | .other, _ => False
  | .reply, _ => False

/-- the reply `r` is right for a request whose code ended with `os` -/
def Right (q : Req) (os : List Out) (r : Reply) : Prop :=
  (os = [] ∧ AtOnce q r) ∨ ∃ o, os = [o] ∧ Answer q o r

/-- the outcomes of the sends of task `t`, from the history -/
def sends (t : Tid) (ls : List Label) : List SendOut :=
  ls.filterMap (fun l => match l with
    | .send t' o => if t' = t then some o else none
    | _ => none)

/-- the replies sent by task `t` -/
def replies (t : Tid) (log : List Ev) : List (Mid × Reply) :=
  log.filterMap (fun e => match e with
    | .replied t' m r => if t' = t then some (m, r) else none
    | _ => none)

end Xoscar.Pool
