import Verif.Watch.Cmd
/-!
# Model: how a node talks to the meta service

* `meta/src/client.rs` (`MetaHttpClient`)
* `meta/src/service/http.rs` (`read`, `write`, `watch_meta_membership`)
* `meta/src/model/meta_admin.rs` (`watch_meta_node_change`)

The commands themselves are those of `Verif.Watch`.

Simplifications.  An address is a number; only the order of addresses is used.  A request that the client no
longer waits for has been carried out before the next attempt, or never is.  The list of addresses is not
empty: `new` splits a text, which gives at least one part, and a membership of the meta service has a node.
The counters and the histograms of the client are left out.
-/
namespace Verif.Leader
open Verif.Watch

abbrev Addr := Nat

/-- `MetaHttpClient` (client.rs:18-29). -/
structure Client where
  addrs : List Addr
  leader : Addr
deriving DecidableEq

/-- `slice::binary_search`: the loop of the standard library over a base and a size. -/
def searchLoop (l : List Addr) (x : Addr) (base size : Nat) : Option Nat :=
  if _h : size ≤ 1 then if l[base]? = some x then some base else none
  else
    let half := size / 2
    searchLoop l x (if x < l.getD (base + half) 0 then base else base + half) (size - half)
termination_by size
decreasing_by omega

/-- `slice::binary_search`. -/
def search (l : List Addr) (x : Addr) : Option Nat := if l.isEmpty then none else searchLoop l x 0 l.length

/-- `new` (client.rs:33-81). -/
def Client.new (addrs : List Addr) : Client :=
  let l := Sort.sortBy (fun a b => decide (a ≤ b)) addrs
  ⟨l, l.headD 0⟩

/-- `change_meta_membership` (client.rs:166-170) as `watch_meta_node_change` calls it (meta_admin.rs:275-299). -/
def Client.setMembers (c : Client) (addrs : List Addr) : Client :=
  { c with addrs := Sort.sortBy (fun a b => decide (a ≤ b)) addrs }

/-- `switch_leader` (client.rs:172-181). -/
def Client.switch (c : Client) : Client :=
  match search c.addrs c.leader with
  | some i => { c with leader := c.addrs.getD ((i + 1) % c.addrs.length) 0 }
  | none => { c with leader := c.addrs.headD 0 }

/-- What becomes of one attempt. -/
inductive Fate where
  /-- the command is carried out and the answer arrives -/
  | done
  /-- the command is carried out, the answer does not arrive in time -/
  | lost
  /-- the command does not reach a server, or the server has no leader -/
  | dropped
  /-- the server names another one as the leader (http.rs:86-97) -/
  | moved (a : Addr)
deriving DecidableEq

/-- `send_rpc_to_leader` (client.rs:207-239) with a command to write.  The answer is whether the command succeeded. -/
def Client.attempt (c : Client) (s : Store) (cmd : Cmd) (env : Env) : Fate → Client × Store × Option Bool
  | .done => (c, s.command env cmd, some (s.exec env cmd).2)
  | .lost => (c.switch, s.command env cmd, none)
  | .dropped => (c.switch, s, none)
  | .moved a => ({ c with leader := a }, s, none)

/-- `try_send_to_leader` (client.rs:183-205): the loop over `n` attempts; what becomes of them is given. -/
def Client.tries : Nat → Client → Store → Cmd → List (Env × Fate) → Client × Store × Option Bool
  | 0, c, s, _, _ => (c, s, none)
  | _, c, s, _, [] => (c, s, none)
  | n + 1, c, s, cmd, f :: fs =>
    let r := c.attempt s cmd f.1 f.2
    if r.2.2.isSome then r else Client.tries n r.1 r.2.1 cmd fs

/-- `write` (client.rs:103-121). -/
def Client.write (c : Client) (s : Store) (cmd : Cmd) (fs : List (Env × Fate)) : Client × Store × Option Bool :=
  Client.tries 3 c s cmd fs

/-! ## Looking for the leader -/

/-- The servers: which of them are up, and which of them is the leader. -/
structure Servers where
  up : Addr → Bool
  lead : Addr

/-- What a server does with a command (http.rs:77-114). -/
def Servers.fate (h : Servers) (a : Addr) : Fate :=
  if !h.up a then .dropped else if a = h.lead then .done else .moved h.lead

/-- Up to `n` attempts (client.rs:183-205): the client afterwards, and whether there was an answer. -/
def Client.reach (h : Servers) : Nat → Client → Client × Bool
  | 0, c => (c, false)
  | n + 1, c =>
    match h.fate c.leader with
    | .done => (c, true)
    | .moved a => Client.reach h n { c with leader := a }
    | _ => Client.reach h n c.switch

/-- Commands one after the other: which of them were answered. -/
def Client.commands (h : Servers) : Nat → Client → List Bool
  | 0, _ => []
  | m + 1, c => let r := c.reach h 3; r.2 :: Client.commands h m r.1

/-! ## Reading -/

/-- The log of commands, and how many of them each server has applied. -/
structure Cluster where
  log : List Nat
  applied : Addr → Nat

/-- A command written to the leader: it is answered when the leader has applied it (http.rs:77-85). -/
def Cluster.write (k : Cluster) (lead : Addr) (x : Nat) : Cluster :=
  ⟨k.log ++ [x], fun a => if a = lead then k.log.length + 1 else k.applied a⟩

/-- A server applies more of the log. -/
def Cluster.apply (k : Cluster) (a : Addr) (n : Nat) : Cluster :=
  { k with applied := fun b => if b = a then max (k.applied b) (min n k.log.length) else k.applied b }

/-- The commands that a server has applied (http.rs:57-74): what it answers a reader with. -/
def Cluster.read (k : Cluster) (a : Addr) : List Nat := k.log.take (k.applied a)

/-- `read` (client.rs:83-101): every server that is up answers, the leader or not. -/
def Client.readFrom (up : Addr → Bool) (k : Cluster) : Nat → Client → Client × Option (List Nat)
  | 0, c => (c, none)
  | n + 1, c => if up c.leader then (c, some (k.read c.leader)) else Client.readFrom up k n c.switch

end Verif.Leader
