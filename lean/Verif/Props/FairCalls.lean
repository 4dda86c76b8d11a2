import Verif.Props.Fair
import Verif.Props.SystemCalls
import Verif.Props.FinishRuns
import Verif.Props.RestRuns
import Verif.System.Beats

/-!
# C97 for blocking calls

In a fair run a `map` or a blocking `get` that waits comes to its end, and what it returns or raises.
-/

namespace Verif.Props

open Verif.Wire Verif.Sched Verif.Spec Verif.Spec.Client Verif.System
open Verif.Client (Pickle Caller Calls COp Iter mapCalls UserNode Act FState FreshCall)

variable {F V X : Type} {p : Pickle} {rt : Proc.Runtime F V X} {cfg : Config} {s s' : Sys F} {es : List Sched.Event}
  {evs : Nat → List Sched.Event} {run : Nat → Sys F} {ops : Nat → System.Op}

/-- A fair run comes to a rest at which everything went well, and from then on its clients stay as they are. -/
theorem fair_well (hf : FairRun p rt evs run ops) (h : Orderly p rt cfg (evs 0) (run 0)) (hH : Harmless p rt) (hw : cfg.maxWaiting < 0)
    (hq : fitsBits 32 cfg.queueSize) (h1 : 1 ≤ cfg.queueSize) (hc : ∃ w, Connected (run 0).sched w)
    (hN : ∀ es' s', Continues p rt (evs 0) (run 0) es' s' → NodesReturn s') :
    ∃ n, Orderly p rt cfg (evs n) (run n) ∧ WentWell p rt cfg (run n) ∧
      ∀ i, n ≤ i → (run i).peers = (run n).peers ∧ (run i).gets = (run n).gets := by
  obtain ⟨n, hn⟩ := C91_settles run ops h.reach hf.inner hf.step
  have hcont : ∀ i, Continues p rt (evs 0) (run 0) (evs i) (run i) := fun i => by simpa using hf.continues 0 i
  have hpeers : ∀ i j, n ≤ i → (run (i + j)).peers = (run i).peers := by
    intro i j hi
    induction j with
    | zero => rfl
    | succ j ih => rw [← ih]; exact idle_peers (hn (i + j) (by omega))
  obtain ⟨j, hj, hd | ⟨ht, hno⟩⟩ := hf.progress n
  · exact absurd (hn j hj) hd
  obtain ⟨w, hc⟩ := hc
  have ho := (hcont j).orderly h
  have hL : LoadsRight (run j).sched := fun v n ts hp hv => Option.some.inj (hp.symm.trans (prompt_records ho.exec ho.prompt (by omega) v ts hv))
  refine ⟨j, ho, ⟨ho.steady, ho.noCancel, C97_rests ho hH hw hq ht (hN _ _ (hcont j)) hno, hL, h1, w, ((hcont j).keeps h).2 w hc⟩, fun i hi => ?_⟩
  obtain ⟨d, rfl⟩ : ∃ d, i = j + d := ⟨i - j, by omega⟩
  exact ⟨hpeers j d hj, (hf.continues j d).gets⟩

/-- What the run does to a client whose user waits in a call, the connector's thread of that client does to the call. -/
theorem inner_caller {o : System.Op} (hi : inner o = true) (hs : s.step p rt o = some s') {x : Bytes} {b : Caller} (hx : s.peers x = .client b.client)
    (hu : b.client.user = .idle) (hd : b.dead = false) :
    ∃ os b1, Calls p b os b1 ∧ (∀ o ∈ os, goesOn o = true) ∧ s'.peers x = .client b1.client ∧ b1.client.user = .idle ∧ b1.dead = false ∧ b1.call = b.call := by
  by_cases he : ∃ co, o = .client x co
  · obtain ⟨co, rfl⟩ := he
    simp only [Sys.step, hx] at hs
    have key : ∀ {o' : Client.Op} {co' : COp} {s2 : Sys F}, s.clientStep p x b.client o' = some s2 → b.step p co' = b.thread p o' → FreshCall p b co' →
        goesOn co' = true → (o' = .flush ∨ o' = .exit ∨ ∃ m, o' = .recv m) → ∃ os b1, Calls p b os b1 ∧ (∀ o ∈ os, goesOn o = true) ∧
          s2.peers x = .client b1.client ∧ b1.client.user = .idle ∧ b1.dead = false ∧ b1.call = b.call := by
      intro o' co' s2 h1 h2 h3 h4 h5
      obtain ⟨c', hc', rfl⟩ := clientStep_some h1
      have ht : b.thread p o' = { b with client := c' } := by simp only [Caller.thread, hd, hc', Bool.false_eq_true, if_false]
      have hu' : c'.user = .idle := by
        have := (thread_user (p := p) (b := b) h5).trans hu
        rw [ht] at this
        exact this
      refine ⟨[co'], b.step p co', .cons _ h3 (.nil _), by simpa using h4, ?_, ?_, ?_, ?_⟩ <;> rw [h2, ht]
      · exact peer_self
      · exact hu'
      · exact hd
    cases co with
    | advance =>
      obtain ⟨c', hc', rfl⟩ := clientStep_some (by simpa only [Sys.clientOp] using hs)
      simp only [Client.Client.step, Client.Client.advance, hu] at hc'
      cases hc'
      exact ⟨[], b, .nil _, (by simp), peer_self, hu, hd, rfl⟩
    | recv m =>
      simp only [Sys.clientOp] at hs
      split at hs
      · split at hs
        · cases hs
        · next hcar =>
          cases carryOut_eq hcar
          rw [if_pos rfl] at hs
          exact key (co' := .recv m) hs rfl trivial rfl (.inr (.inr ⟨m, rfl⟩))
      · cases hs
    | flush => exact key (co' := .flush) (by simpa only [Sys.clientOp] using hs) rfl trivial rfl (.inl rfl)
    | _ => cases hi
  · have : s'.peers x = s.peers x := by
      by_cases hy : opPeer o = some x
      · cases o with
        | client y co => cases hy; exact absurd ⟨co, rfl⟩ he
        | agent y e => cases hy; simp only [Sys.step, hx] at hs; cases hs
        | proc y n e => cases hy; simp only [Sys.step, hx] at hs; cases hs
        | sched e => cases hy
        | _ => cases hi
      · exact step_other hs hy
    exact ⟨[], b, .nil _, (by simp), this.trans hx, hu, hd, rfl⟩

theorem joined_calls {b b1 b2 : Caller} {os os1 : List COp} (h : Calls p b os b1) (h' : Calls p b1 os1 b2) : Calls p b (os ++ os1) b2 := by
  induction h with
  | nil => exact h'
  | cons o hf _ ih => exact .cons o hf (ih h')

/-- So the user waits in the call as long as the user does nothing. -/
theorem fair_caller (hf : FairRun p rt evs run ops) {x : Bytes} {b : Caller} (hx : (run 0).peers x = .client b.client) (hu : b.client.user = .idle)
    (hd : b.dead = false) (i : Nat) :
    ∃ os b1, Calls p b os b1 ∧ (∀ o ∈ os, goesOn o = true) ∧ (run i).peers x = .client b1.client ∧ b1.client.user = .idle ∧ b1.dead = false ∧
      b1.call = b.call := by
  induction i with
  | zero => exact ⟨[], b, .nil _, (by simp), hx, hu, hd, rfl⟩
  | succ i ih =>
    obtain ⟨os, b1, h1, h2, h3, h4, h5, h6⟩ := ih
    obtain ⟨os', b2, k1, k2, k3, k4, k5, k6⟩ := inner_caller (hf.inner i) (hf.step i) h3 h4 h5
    exact ⟨os ++ os', b2, joined_calls h1 k1, fun o ho => (List.mem_append.1 ho).elim (h2 o) (k2 o), k3, k4, k5, k6.trans h6⟩

/-- Waiting for futures that have results or exceptions. -/
theorem waiting_ends {b : Caller} {left : List (Bytes × Nat)} {rs : List (Bytes × Bytes)} (hu : b.client.user = .idle) (hb : b.call = .waiting left rs)
    (hD : ∀ y ∈ left, ∃ r, b.client.futures[y.2]? = some (.result r) ∨ b.client.futures[y.2]? = some (.exception r)) :
    ∃ b', Calls p b (finishing (left.length + 1)) b' ∧
      ((∃ got, b'.call = .returned (rs ++ got) ∧ got.map (·.1) = left.map (·.1) ∧
          got.map (fun r => some (FState.result r.2)) = left.map fun x => b.client.futures[x.2]?) ∨
        ∃ l1 k n l2 r, left = l1 ++ (k, n) :: l2 ∧ (∀ y ∈ l1, ∃ r', b.client.futures[y.2]? = some (.result r')) ∧
          b.client.futures[n]? = some (.exception r) ∧ b'.call = .raised (.exception r)) := by
  have fresh : ∀ {b : Caller} {left rs}, b.client.user = .idle → b.call = .waiting left rs → FreshCall p b .go := by
    intro b left rs h1 h2; simp only [FreshCall, h1, h2]
  induction left generalizing b rs with
  | nil =>
    have h1 : b.step p .go = { b with call := .returned rs } := by simp only [Caller.step, Caller.go, hu, if_true, hb]
    obtain ⟨b', h2, h3⟩ := over_finish (p := p) (b := { b with call := .returned rs }) hu trivial
    exact ⟨b', .cons _ (fresh hu hb) (by rw [h1]; exact h2), .inl ⟨[], by rw [h3, List.append_nil], rfl, rfl⟩⟩
  | cons y left ih =>
    obtain ⟨k, n⟩ := y
    obtain ⟨r, hr | hr⟩ := hD (k, n) List.mem_cons_self
    · have h1 : b.step p .go = { b with call := .waiting left (rs ++ [(k, r)]) } := by
        simp only [Caller.step, Caller.go, hu, if_true, hb, hr]
      obtain ⟨b', h2, h3⟩ := ih (b := { b with call := .waiting left (rs ++ [(k, r)]) }) hu rfl fun z hz => hD z (List.mem_cons_of_mem _ hz)
      refine ⟨b', .cons _ (fresh hu hb) (by rw [h1]; exact h2), ?_⟩
      rcases h3 with ⟨got, g1, g2, g3⟩ | ⟨l1, k', n', l2, r', g1, g2, g3, g4⟩
      · refine .inl ⟨(k, r) :: got, by rw [g1]; simp, by simp [g2], ?_⟩
        simp only [List.map_cons, g3, hr]
      · refine .inr ⟨(k, n) :: l1, k', n', l2, r', by rw [g1]; rfl, fun z hz => ?_, g3, g4⟩
        rcases List.mem_cons.1 hz with rfl | hz
        · exact ⟨r, hr⟩
        · exact g2 z hz
    · have h1 : b.step p .go = { b with client := { b.client with stop := true }, call := .joining (.exception r) } := by
        simp only [Caller.step, Caller.go, hu, if_true, hb, hr]
      obtain ⟨b', h2, h3⟩ := joining_goes (p := p) (b := { b with client := { b.client with stop := true }, call := .joining (.exception r) }) hu rfl rfl (left.length + 1)
      exact ⟨b', .cons _ (fresh hu hb) (by rw [h1]; exact h2), .inr ⟨[], k, n, left, r, rfl, (by simp), hr, h3⟩⟩

/-- What comes of a `map` that still waits when the run has settled. -/
theorem settled_map (hf : FairRun p rt evs run ops) (h : Orderly p rt cfg (evs 0) (run 0)) (hH : Harmless p rt) (hw : cfg.maxWaiting < 0)
    (hq : fitsBits 32 cfg.queueSize) (h1 : 1 ≤ cfg.queueSize) (hc : ∃ w, Connected (run 0).sched w)
    (hN : ∀ es' s', Continues p rt (evs 0) (run 0) es' s' → NodesReturn s') (hh : ∀ b b', p.hash b = p.hash b' → b = b') :
    ∃ n, ∀ i, n ≤ i → ∀ (x : Bytes) (b b' : Caller) (os : List COp) (ids : List Bytes) (nm ct : Bytes) (it : Iter) (cs : List (List Bytes))
      (left : List (Bytes × Nat)) (rs : List (Bytes × Bytes)),
      (run i).peers x = .client b'.client → b.idle = true → mapCalls it = .ok cs → cs.length ≤ ids.length →
      Calls p (b.step p (.map ids nm ct it)) os b' → (∀ o ∈ os, goesOn o = true) → b'.call = .waiting left rs →
      ∃ b'', Calls p b' (finishing (left.length + 1)) b'' ∧
        ((∃ rs', b''.call = .returned rs' ∧ rs'.length = cs.length ∧ ∀ (j : Nat) args r, cs[j]? = some args → (rs'.map (·.2))[j]? = some r →
            ∃ f, rt.loadFn ct = .ok f ∧ Processor.Returns rt f (args.map fun a => ⟨.data, a⟩) r) ∨
          ∃ (j : Nat) (args : List Bytes) (e : X) (r : Bytes), b''.call = .raised (.exception r) ∧ cs[j]? = some args ∧ rt.dumpExc e = some r ∧
            ((∃ f, rt.loadFn ct = .ok f ∧ Processor.Raises rt f (args.map fun a => ⟨.data, a⟩) e) ∨
              Processor.LoadFails rt (args.map fun a => ⟨.data, a⟩) e ∨ e = rt.notCallable) ∧
            ∀ (j' : Nat) (args' : List Bytes), j' < j → cs[j']? = some args' →
              ∃ f r', rt.loadFn ct = .ok f ∧ Processor.Returns rt f (args'.map fun a => ⟨.data, a⟩) r') := by
  obtain ⟨n, ho, hW, hp⟩ := fair_well hf h hH hw hq h1 hc hN
  refine ⟨n, fun i hi x b b' os ids nm ct it cs left rs hx hb hm hl hcalls hgo hwait => ?_⟩
  rw [(hp i hi).1] at hx
  have hr := ho.reach
  have hn : NoCollision p (run n) := fun b b' _ _ e => hh b b' e
  obtain ⟨hT, -⟩ := ho.client hx
  simp only [Caller.step, hb, if_true, hm] at hcalls
  rcases maps_run hb hcalls hgo with ⟨l, got, e, -⟩ | ⟨e, h'⟩ | ⟨L, g1, g2, g3, g4⟩
  · rw [hwait] at e; cases e
  · rw [hwait] at h'; cases h'
  replace g4 : AwaitsAll L b' := g4
  unfold AwaitsAll at g4
  rw [hwait] at g4
  obtain ⟨done, rfl, g5, g6⟩ := g4
  have hat : ∀ (j : Nat) (y : Bytes × Nat), (done ++ left)[j]? = some y → ∃ args, (ids.zip cs)[j]? = some (y.1, args) := by
    intro j y hy
    have : ((ids.zip cs).map (·.1))[j]? = some y.1 := by rw [← g1, List.getElem?_map, hy]; rfl
    rw [List.getElem?_map, Option.map_eq_some_iff] at this
    obtain ⟨⟨a, args⟩, k1, rfl⟩ := this
    exact ⟨args, k1⟩
  have hval : ∀ (j : Nat) (y : Bytes × Nat) args r, (done ++ left)[j]? = some y → (ids.zip cs)[j]? = some (y.1, args) →
      b'.client.futures[y.2]? = some (.result r) → ∃ f, rt.loadFn ct = .ok f ∧ Processor.Returns rt f (args.map fun a => ⟨.data, a⟩) r := by
    intro j y args r hy ha hres
    obtain ⟨k, nm', ct', f, k1, k2, k3, k4⟩ := C62_value hr hn hx (g2 y (List.mem_of_getElem? hy)).2 hres
    obtain ⟨rfl, -, rfl⟩ := (hr.inv.client hx).task.once _ _ _ _ _ _ k1 (g3 _ (List.mem_of_getElem? ha)) k2
    exact ⟨f, k3, k4⟩
  obtain ⟨b'', hfin, hend⟩ := waiting_ends (p := p) (hW.rest.client x _ hx hT.calm.open').user hwait fun y hy =>
    C95_submit hW hx hT.alone hT.calm.open' (g2 y (List.mem_append_right _ hy)).2
  refine ⟨b'', hfin, ?_⟩
  have hlen : (done ++ left).length = cs.length := by
    have := congrArg List.length g1
    simp only [List.length_map, List.length_zip] at this
    omega
  rcases hend with ⟨got, k1, k2, k3⟩ | ⟨l1, k, m, l2, r, e, k1, k2, k3⟩
  · left
    have hrl : (rs ++ got).length = (done ++ left).length := by
      have e1 := congrArg List.length g5
      have e2 := congrArg List.length k2
      simp only [List.length_map] at e1 e2
      simp only [List.length_append]
      omega
    have hres : (rs ++ got).map (fun r => some (FState.result r.2)) = (done ++ left).map fun x => b'.client.futures[x.2]? := by
      rw [List.map_append, List.map_append, g6, k3]
    refine ⟨rs ++ got, k1, by omega, fun j args r ha hj => ?_⟩
    obtain ⟨t, ht⟩ := zip_at hl ha
    rw [List.getElem?_map, Option.map_eq_some_iff] at hj
    obtain ⟨z, hz, rfl⟩ := hj
    have hjl : j < (done ++ left).length := by rw [← hrl]; exact (List.getElem?_eq_some_iff.1 hz).1
    obtain ⟨args', ha'⟩ := hat j _ (List.getElem?_eq_getElem hjl)
    rw [ht] at ha'
    cases ha'
    have h6 := congrArg (·[j]?) hres
    simp only [List.getElem?_map, hz, List.getElem?_eq_getElem hjl, Option.map_some, Option.some.injEq] at h6
    exact hval j _ args z.2 (List.getElem?_eq_getElem hjl) ht h6.symm
  · right
    subst e
    have hmid : (done ++ (l1 ++ (k, m) :: l2))[done.length + l1.length]? = some (k, m) := by
      rw [← List.append_assoc, ← List.length_append]
      simp
    obtain ⟨args, ha⟩ := hat _ _ hmid
    obtain ⟨k', nm', ct', e, q1, q2, q3, q4⟩ := C62_exception hr hn hx (g2 _ (List.mem_of_getElem? hmid)).2 k2
    obtain ⟨rfl, -, rfl⟩ := (hr.inv.client hx).task.once _ _ _ _ _ _ q1 (g3 _ (List.mem_of_getElem? ha)) q2
    refine ⟨done.length + l1.length, args, e, r, k3, (List.getElem?_zip_eq_some.1 ha).2, q3, q4, fun j args' hj hj' => ?_⟩
    have hjl : j < (done ++ (l1 ++ (k, m) :: l2)).length := by
      simp only [List.length_append, List.length_cons]; omega
    obtain ⟨args'', ha'⟩ := hat j _ (List.getElem?_eq_getElem hjl)
    obtain rfl : args'' = args' := Option.some.inj ((List.getElem?_zip_eq_some.1 ha').2.symm.trans hj')
    have hr' : ∃ r', b'.client.futures[(done ++ (l1 ++ (k, m) :: l2))[j].2]? = some (.result r') := by
      by_cases hd : j < done.length
      · have h6 := congrArg (·[j]?) g6
        have hjr : j < rs.length := by
          have := congrArg List.length g5
          simp only [List.length_map] at this
          omega
        simp only [List.getElem?_map, List.getElem?_eq_getElem hd, List.getElem?_eq_getElem hjr, Option.map_some, Option.some.injEq] at h6
        rw [List.getElem_append_left hd]
        exact ⟨_, h6.symm⟩
      · have hd' : j - done.length < l1.length := by omega
        rw [List.getElem_append_right (by omega), List.getElem_append_left hd']
        exact k1 _ (List.getElem_mem hd')
    obtain ⟨r', hr'⟩ := hr'
    obtain ⟨f, k4, k5⟩ := hval j _ _ r' (List.getElem?_eq_getElem hjl) ha' hr'
    exact ⟨f, r', k4, k5⟩

/-- **C97**, for `map`: sooner or later a `map` that waits ends.  It returns a list as long as what it was called with, in which there
is at each place what the function returned for what is at that place; or it raises what the function raised for one of them, and those
before it returned. -/
theorem C97_map (hf : FairRun p rt evs run ops) (h : Orderly p rt cfg (evs 0) (run 0)) (hH : Harmless p rt) (hw : cfg.maxWaiting < 0)
    (hq : fitsBits 32 cfg.queueSize) (h1 : 1 ≤ cfg.queueSize) (hc : ∃ w, Connected (run 0).sched w)
    (hN : ∀ es' s', Continues p rt (evs 0) (run 0) es' s' → NodesReturn s') (hh : ∀ b b', p.hash b = p.hash b' → b = b')
    {x : Bytes} {b b' : Caller} {os : List COp} {ids : List Bytes} {nm ct : Bytes} {it : Iter} {cs : List (List Bytes)} {left : List (Bytes × Nat)}
    {rs : List (Bytes × Bytes)} (hx : (run 0).peers x = .client b'.client) (hb : b.idle = true) (hm : mapCalls it = .ok cs) (hl : cs.length ≤ ids.length)
    (hcalls : Calls p (b.step p (.map ids nm ct it)) os b') (hgo : ∀ o ∈ os, goesOn o = true) (hwait : b'.call = .waiting left rs)
    (hu : b'.client.user = .idle) (hd : b'.dead = false) :
    ∃ n, ∀ i, n ≤ i → ∃ os1 b1 b2, Calls p b' os1 b1 ∧ (∀ o ∈ os1, goesOn o = true) ∧ (run i).peers x = .client b1.client ∧
      Calls p b1 (finishing (left.length + 1)) b2 ∧
        ((∃ rs', b2.call = .returned rs' ∧ rs'.length = cs.length ∧ ∀ (j : Nat) args r, cs[j]? = some args → (rs'.map (·.2))[j]? = some r →
            ∃ f, rt.loadFn ct = .ok f ∧ Processor.Returns rt f (args.map fun a => ⟨.data, a⟩) r) ∨
          ∃ (j : Nat) (args : List Bytes) (e : X) (r : Bytes), b2.call = .raised (.exception r) ∧ cs[j]? = some args ∧ rt.dumpExc e = some r ∧
            ((∃ f, rt.loadFn ct = .ok f ∧ Processor.Raises rt f (args.map fun a => ⟨.data, a⟩) e) ∨
              Processor.LoadFails rt (args.map fun a => ⟨.data, a⟩) e ∨ e = rt.notCallable) ∧
            ∀ (j' : Nat) (args' : List Bytes), j' < j → cs[j']? = some args' →
              ∃ f r', rt.loadFn ct = .ok f ∧ Processor.Returns rt f (args'.map fun a => ⟨.data, a⟩) r') := by
  obtain ⟨n, hn⟩ := settled_map hf h hH hw hq h1 hc hN hh
  refine ⟨n, fun i hi => ?_⟩
  obtain ⟨os1, b1, k1, k2, k3, -, -, k4⟩ := fair_caller hf hx hu hd i
  obtain ⟨b2, k5, k6⟩ := hn i hi x b b1 (os ++ os1) ids nm ct it cs left rs k3 hb hm hl (joined_calls hcalls k1)
    (fun o ho => (List.mem_append.1 ho).elim (hgo o) (k2 o)) (k4.trans hwait)
  exact ⟨os1, b1, b2, k1, k2, k3, k5, k6⟩

/-- **C97**, for `get`: sooner or later a blocking `get` of different keys that waits returns, with exactly the keys it was asked for, in
their order, and with what the graph says about each of them. -/
theorem C97_get (hf : FairRun p rt evs run ops) (h : Orderly p rt cfg (evs 0) (run 0)) (hH : Harmless p rt) (hw : cfg.maxWaiting < 0)
    (hq : fitsBits 32 cfg.queueSize) (h1 : 1 ≤ cfg.queueSize) (hc : ∃ w, Connected (run 0).sched w)
    (hN : ∀ es' s', Continues p rt (evs 0) (run 0) es' s' → NodesReturn s') (hh : ∀ b b', p.hash b = p.hash b' → b = b')
    {value : Bytes → List Bytes → Bytes} (hD : Deterministic rt value) {call : GetCall} (hcall : call ∈ (run 0).gets)
    {b b' : Caller} {os : List COp} {ids : List Bytes} {gid : Bytes} {c : Client.Client} {left : List (Bytes × Nat)} {rs : List (Bytes × Bytes)}
    (hx : (run 0).peers call.client = .client b'.client) (hb : b.idle = true)
    (hg : b.client.callGet p ids gid call.graph call.keys = .ok (c, call.futures)) (hl : Client.Enough call.graph ids) (hids : ids.Nodup)
    (hkeys : call.keys.Nodup) (hcalls : Calls p (b.step p (.get ids gid call.graph call.keys true)) os b') (hgo : ∀ o ∈ os, goesOn o = true)
    (hwait : b'.call = .waiting left rs) (hu : b'.client.user = .idle) (hd : b'.dead = false) :
    ∃ n, ∀ i, n ≤ i → ∃ os1 b1 b2 rs', Calls p b' os1 b1 ∧ (∀ o ∈ os1, goesOn o = true) ∧ (run i).peers call.client = .client b1.client ∧
      Calls p b1 (finishing (left.length + 1)) b2 ∧ b2.call = .returned rs' ∧ rs'.map (·.1) = call.keys ∧
      ∀ y ∈ rs', UserValue call.graph value y.1 y.2 := by
  obtain ⟨n, ho, hW, hp⟩ := fair_well hf h hH hw hq h1 hc hN
  refine ⟨n, fun i hi => ?_⟩
  obtain ⟨os1, b1, k1, k2, k3, k3', -, k4⟩ := fair_caller hf hx hu hd i
  have hcall' : call ∈ (run n).gets := by
    have := (hf.continues 0 n).gets
    rw [Nat.zero_add] at this
    rw [this]; exact hcall
  have hxn : (run n).peers call.client = .client b1.client := by rw [← (hp i hi).1]; exact k3
  have hall := joined_calls hcalls k1
  have hgo' : ∀ o ∈ os ++ os1, goesOn o = true := fun o ho => (List.mem_append.1 ho).elim (hgo o) (k2 o)
  have hA : AwaitsAll call.futures.items b1 := by
    rcases gets_run hb hg hall hgo' with e | e
    · rw [k4, hwait] at e; cases e
    · exact e
  unfold AwaitsAll at hA
  rw [k4, hwait] at hA
  obtain ⟨done, e, e1, e2⟩ := hA
  obtain ⟨m, id, -, -, hk, -⟩ := C43_partial p b.client call.graph call.keys ids gid hl hids hkeys c call.futures hg
  obtain ⟨c', hc', hres⟩ := well_graph ho hW hw hcall' (hkeys.sublist (List.take_sublist _ _))
  rw [hxn] at hc'
  cases hc'
  have hdone : ∀ y ∈ left, ∃ r, b1.client.futures[y.2]? = some (.result r) := by
    intro y hy
    have hy' : y ∈ call.futures.items := by rw [e]; exact List.mem_append_right _ hy
    obtain ⟨n', r, g1, g2⟩ := hres y.1 (by rw [← hk]; exact List.mem_map_of_mem hy')
    rw [Dict.mem_items.1 hy'] at g1
    cases g1
    exact ⟨r, g2⟩
  obtain ⟨b2, k5, k6⟩ := waiting_ends (p := p) k3' (k4.trans hwait) fun y hy => (hdone y hy).imp fun r hr => .inl hr
  rcases k6 with ⟨got, g1, g2, g3⟩ | ⟨l1, k, n', l2, r, g1, -, g3, -⟩
  · have h4 : (rs ++ got).map (·.1) = call.futures.items.map (·.1) := by rw [e, List.map_append, List.map_append, e1, g2]
    have h5 : (rs ++ got).map (fun r => some (FState.result r.2)) = call.futures.items.map fun y => b1.client.futures[y.2]? := by
      rw [e, List.map_append, List.map_append, e2, g3]
    refine ⟨os1, b1, b2, rs ++ got, k1, k2, k3, k5, g1, h4.trans hk, fun y hy => ?_⟩
    obtain ⟨j, hj⟩ := List.getElem?_of_mem hy
    have q1 := congrArg (·[j]?) h4
    have q2 := congrArg (·[j]?) h5
    simp only [List.getElem?_map, hj, Option.map_some] at q1 q2
    obtain ⟨z, hz, q1⟩ := Option.map_eq_some_iff.1 q1.symm
    simp only [hz, Option.map_some, Option.some.injEq] at q2
    have hget : call.futures.get? y.1 = some z.2 := by
      rw [← q1]
      exact Dict.mem_items.1 (List.mem_of_getElem? hz)
    exact (C63_value_partial ho.reach (fun b b' _ _ e => hh b b' e) hD hcall' (hkeys.sublist (List.take_sublist _ _)) hxn hget q2.symm).2
  · obtain ⟨r', hr'⟩ := hdone (k, n') (by rw [g1]; simp)
    rw [g3] at hr'
    cases hr'

/-! ### Such runs -/

/-- `map(f, [(1,), (2,)])`: both tasks are submitted, and the scheduler has got nothing of it yet. -/
def mapWay : List System.Op :=
  meet ++ (([.submit [10] [5] [9] [[1]]] ++ List.replicate 5 .advance ++ [.submit [11] [5] [9] [[2]]] ++ List.replicate 5 .advance ++
    [.flush, .flush] : List Client.Op).map (System.Op.client [1]))

/-- The hypotheses of `C97_map` can be met. -/
example : ∃ evs run ops b', FairRun strictPickle kind evs run ops ∧ Orderly strictPickle kind narrow (evs 0) (run 0) ∧ Harmless strictPickle kind ∧
    narrow.maxWaiting < 0 ∧ fitsBits 32 narrow.queueSize ∧ 1 ≤ narrow.queueSize ∧ Connected (run 0).sched [2] ∧
    (∀ es' s', Continues strictPickle kind (evs 0) (run 0) es' s' → NodesReturn s') ∧ (∀ b b', strictPickle.hash b = strictPickle.hash b' → b = b') ∧
    (run 0).peers [1] = .client b'.client ∧ Caller.init.idle = true ∧ mapCalls ⟨false, [.args [[1]], .args [[2]]]⟩ = .ok [[[1]], [[2]]] ∧
    (∃ os, Calls strictPickle (Caller.init.step strictPickle (.map [[10], [11]] [5] [9] ⟨false, [.args [[1]], .args [[2]]]⟩)) os b' ∧
      ∀ o ∈ os, goesOn o = true) ∧ b'.call = .waiting [([10], 0), ([11], 1)] [] ∧ b'.client.user = .idle ∧ b'.dead = false ∧
    b'.client.futures = [.pending, .pending] := by
  have h := orderlyRun_ok narrow mapWay
  have hc : Connected (orderlyRun narrow mapWay).2.sched [2] := by decide +kernel
  have hN := C97_quiet h (List.isEmpty_iff.1 (by decide +kernel))
  have hq : fitsBits 32 narrow.queueSize := by unfold fitsBits; decide
  obtain ⟨evs, run, ops, hf, he, hr⟩ := C97_fair_run h kind_harmless (by decide) hq ⟨_, hc⟩ hN
  have hb : ((callerRun strictPickle (Caller.init.step strictPickle (.map [[10], [11]] [5] [9] ⟨false, [.args [[1]], .args [[2]]]⟩))
      (List.replicate 12 .go ++ [.flush, .flush])).map fun b => decide (clientAt (orderlyRun narrow mapWay).2 [1] = some b.client ∧
        b.call = .waiting [([10], 0), ([11], 1)] [] ∧ b.client.user = .idle ∧ b.dead = false ∧ b.client.futures = [.pending, .pending])) = some true := by
    decide +kernel
  obtain ⟨b', h1, h2⟩ := Option.map_eq_some_iff.1 hb
  obtain ⟨h3, h4⟩ := of_decide_eq_true h2
  exact ⟨evs, run, ops, b', hf, by rw [he, hr]; exact h, kind_harmless, by decide, hq, by decide, by rw [hr]; exact hc, by rw [he, hr]; exact hN,
    fun _ _ h => h, by rw [hr]; exact clientAt_eq h3, rfl, by decide, ⟨_, callerRun_calls h1, by decide⟩, h4⟩

theorem kind_deterministic : Deterministic kind toyValue := by
  rintro b f args r hf ⟨vs, c, v, h1, h2, h3⟩
  refine toy_deterministic b f args r hf ⟨vs, c, v, ?_, h2, h3⟩
  clear h2
  induction h1 with
  | nil => exact .nil
  | cons h _ ih => exact .cons h ih

/-- The hypotheses of `C97_get` can be met. -/
example : ∃ evs run ops b' call, FairRun strictPickle kind evs run ops ∧ Orderly strictPickle kind narrow (evs 0) (run 0) ∧ Harmless strictPickle kind ∧
    narrow.maxWaiting < 0 ∧ fitsBits 32 narrow.queueSize ∧ 1 ≤ narrow.queueSize ∧ Connected (run 0).sched [2] ∧
    (∀ es' s', Continues strictPickle kind (evs 0) (run 0) es' s' → NodesReturn s') ∧ (∀ b b', strictPickle.hash b = strictPickle.hash b' → b = b') ∧
    Deterministic kind toyValue ∧ call ∈ (run 0).gets ∧ (run 0).peers call.client = .client b'.client ∧ Caller.init.idle = true ∧
    (∃ c, Caller.init.client.callGet strictPickle [[20], [21]] [30] call.graph call.keys = .ok (c, call.futures)) ∧
    Client.Enough call.graph [[20], [21]] ∧ call.keys.Nodup ∧
    (∃ os, Calls strictPickle (Caller.init.step strictPickle (.get [[20], [21]] [30] call.graph call.keys true)) os b' ∧ ∀ o ∈ os, goesOn o = true) ∧
    b'.call = .waiting [([3], 0), ([2], 1)] [] ∧ b'.client.user = .idle ∧ b'.dead = false ∧ b'.client.futures = [.pending, .pending] := by
  have h := orderlyRun_ok narrow askWay
  have hc : Connected (orderlyRun narrow askWay).2.sched [2] := by decide +kernel
  have hN := C97_nodes h (fun _ _ h => h) askWay_returns (procFine_ok (xs := [[1], [2]]) (orderlyRun_only (by decide) _) (by decide +kernel))
  have hq : fitsBits 32 narrow.queueSize := by unfold fitsBits; decide
  obtain ⟨evs, run, ops, hf, he, hr⟩ := C97_fair_run h kind_harmless (by decide) hq ⟨_, hc⟩ hN
  obtain ⟨call, k1, k2, k3, k4, k5⟩ : ∃ call ∈ (orderlyRun narrow askWay).2.gets, call.client = [1] ∧ call.keys = [[3], [2]] ∧
      call.graph.items = getGraph.items ∧ call.futures.items = [([3], 0), ([2], 1)] := by decide +kernel
  have hg : call.graph = getGraph := by
    cases hc : call.graph
    rw [hc] at k4
    cases k4
    rfl
  have hb : ((callerRun strictPickle (Caller.init.step strictPickle (.get [[20], [21]] [30] getGraph [[3], [2]] true))
      (List.replicate 2 .go ++ [.flush])).map fun b => decide (clientAt (orderlyRun narrow askWay).2 [1] = some b.client ∧
        b.call = .waiting [([3], 0), ([2], 1)] [] ∧ b.client.user = .idle ∧ b.dead = false ∧ b.client.futures = [.pending, .pending])) = some true := by
    decide +kernel
  obtain ⟨b', h1, h2⟩ := Option.map_eq_some_iff.1 hb
  obtain ⟨h3, h4⟩ := of_decide_eq_true h2
  refine ⟨evs, run, ops, b', call, hf, by rw [he, hr]; exact h, kind_harmless, by decide, hq, by decide, by rw [hr]; exact hc, by rw [he, hr]; exact hN,
    fun _ _ h => h, kind_deterministic, by rw [hr]; exact k1, by rw [hr, k2]; exact clientAt_eq h3, rfl, ?_, ?_, by rw [k3]; decide, ?_, h4⟩
  · have hget : (Caller.init.client.callGet strictPickle [[20], [21]] [30] getGraph [[3], [2]]).map (·.2.items) = .ok [([3], 0), ([2], 1)] := by
      decide +kernel
    rw [hg, k3]
    cases he : Caller.init.client.callGet strictPickle [[20], [21]] [30] getGraph [[3], [2]] with
    | error e => rw [he] at hget; cases hget
    | ok y =>
      rw [he] at hget
      exact ⟨y.1, congrArg Except.ok (Prod.ext rfl (Dict.ext_items ((Except.ok.inj hget).trans k5.symm)))⟩
  · rw [hg]
    unfold Client.Enough
    decide
  · rw [hg, k3]
    exact ⟨_, callerRun_calls h1, by decide⟩

end Verif.Props
