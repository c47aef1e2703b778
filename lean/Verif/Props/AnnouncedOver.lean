import Verif.Props.Announced

/-!
# C122 over an ADNL connection
-/
namespace Verif.LongTrip
open Verif.Tl Verif.Adnl Verif.AdnlProto Verif.Address Verif.Node Verif.Receiver Verif.Sender Verif.Props
open Verif.Process Verif.Delivery Verif.RoundTrip
open Verif.Dht (Did logOf LeavesDht NoQuery NoCollision Offers Says SomeOrder FewRecords NoneOutlasts HasNode)
open Verif.DhtProto (Value writeValueResult writeKeyBoxed)
open Verif.Storage (decodeNodes ValidNode)

variable {c : Crypto}

/-- **C122, partial** (over ADNL). Side `b` offered a list with the valid record `n` to the other side and got the
acknowledgement, over a network that loses, repeats, reorders and delays datagrams. No list offered for this overlay
outlasts it (except for lists that had expired). Whatever else the other side went through by then or goes through
later, whoever asks it for the members of the overlay before the list expires is given a list with the record or a
newer one of the same member. -/
theorem C122_over_adnl_partial (hc : c.Lawful) (P : Pair c) (hP : P.Fits) (M G : Message → Prop) (hA : Apart c.sha M)
    (ρ₀ ρ₁ : Talk c) (h0 : TStart P M ρ₀) (h1 : Goes P M G ρ₀ ρ₁) (b : Bool)
    (o : Dht.Opts c) (adnl : Node.State c) (localId : Bytes) (maxPeers : Nat)
    (pre post : List Dispatch.QuerySub) (ms : List Dispatch.MsgSub) (hpre : LeavesDht pre)
    (ds ds' : List (Did c)) (hds : ∀ d ∈ ds, NoQuery d)
    (hlog : ρ₁.log (!b) = logOf o pre post ms (Dht.init adnl localId maxPeers) ds)
    (qid data : Bytes) (v : Value) (n : DhtProto.ONode) (hv : Offers data v) (hr : v.key.rule = .overlayNodes)
    (hn : ∃ sent, decodeNodes v.value = some sent ∧ n ∈ sent) (hval : ValidNode c v.key.key.id n)
    (hone : ∀ x, .query qid x ∈ ρ₁.told b → x = data)
    (y : Reply) (hack : (.answer qid Dht.writeStored, y) ∈ ρ₁.log b)
    (hno : NoCollision o (ds ++ ds')) (hord : SomeOrder (ds ++ ds')) (hfew : FewRecords o (ds ++ ds'))
    (hclk : ∀ d ∈ ds ++ ds', ∀ e, d.env = some e → e.now < v.ttl ∧ e.now' < v.ttl)
    (hgc : ∀ d ∈ ds ++ ds', ∀ t, d.collects t → t < v.ttl)
    (hold : ∀ e l peer x, .asked e l peer qid x ∈ ds → NoneOutlasts o ds e v)
    (e' : Dht.Env c) (question : Bytes) (k : Nat) (hnow : e'.now < v.ttl) (hk0 : 0 < k) (hk : k ≤ o.maxK)
    (hq : Says question (.findValue (c.sha (writeKeyBoxed v.key.key)) k)) :
    ∃ w, HasNode c v w n ∧
      (Dht.consumeQuery o e' (Dht.replay o (Dht.init adnl localId maxPeers) (ds ++ ds')) question).2.1 =
        .answer (writeValueResult (.found w)) := by
  have hstore : (.query (P.id !b) (P.id b) qid data, .answer Dht.writeStored) ∈ ρ₁.log (!b) := by
    rcases C111_nothing_made_up hc P hP M G hA ρ₀ ρ₁ h0 h1 b _ _ hack with ⟨_, _, h, -⟩ | ⟨_, h, -⟩ | ⟨_, _, x, h, g1, g2⟩
    · cases h
    · cases h
    · cases h
      rw [hone x g1] at g2
      exact g2
  rw [hlog] at hstore
  obtain ⟨as, e, bs, hsplit, hreply⟩ := Dht.mem_logOf o pre post ms ds hds _ _ _ _ _ _ hstore
  obtain ⟨q0, hq0, -⟩ := id hv
  have hack' := (Dht.reaction_dht o e _ pre post ms hpre _ _ _ _ q0 hq0 _).mp hreply.symm
  have hlist : as ++ .asked e (P.id !b) (P.id b) qid data :: (bs ++ ds') = ds ++ ds' := by rw [hsplit]; simp
  have hsub : ∀ d ∈ bs ++ ds', d ∈ ds ++ ds' := by
    intro d hd
    rw [← hlist]
    exact List.mem_append_right _ (List.mem_cons_of_mem _ hd)
  obtain ⟨w, -, g2, g3⟩ := Dht.C122_found_partial o adnl localId maxPeers as (bs ++ ds') e e' (P.id !b) (P.id b) qid data
    question v n k
    { offered := hv
      rule := hr
      acknowledged := hack'
      listed := hn
      valid := hval
      noCollision := by rw [hlist]; exact hno
      order := by rw [hlist]; exact hord
      few := by rw [hlist]; exact hfew
      clocks := fun d hd => hclk d (hsub d hd)
      collected := fun d hd => hgc d (hsub d hd) }
    (fun d hd => hold e (P.id !b) (P.id b) data (by rw [hsplit]; simp) d (by rw [hsplit]; exact List.mem_append_left _ hd))
    hnow hk0 hk hq
  rw [hlist] at g3
  exact ⟨w, g2, g3⟩

/-! ### Example -/

namespace AnnOver
open Dht.AnnouncedExample
open Storage.Example (node)

/-- Another peer announced toy node 1; then a list with toy node 2 comes over the connection. -/
def ds : List (Did Crypto.toy) := [.aside (.query Dht.Example.env (storeQ (first 3000))), did second]

theorem offered {w : Value} {d : Did Crypto.toy} (hd : d ∈ ds ++ after) (hw : d.offers Dht.Example.o w) :
    w = first 3000 ∨ w = second := by
  simp only [ds, List.cons_append, List.nil_append, List.mem_cons] at hd
  rcases hd with rfl | rfl | hd
  · exact .inl (offers_only (first_wf (by decide)) w hw)
  · exact .inr (offers_only second_wf w hw)
  · exact Dht.AnnouncedExample.offered (ttl := 3000) (by decide) (List.mem_append_right _ (List.mem_cons_of_mem _ hd)) hw

theorem env_only {d : Did Crypto.toy} (hd : d ∈ ds ++ after) {e : Dht.Env Crypto.toy} (he : d.env = some e) :
    e = Dht.Example.env := by
  simp only [ds, List.cons_append, List.nil_append, List.mem_cons] at hd
  rcases hd with rfl | rfl | hd
  · exact (Option.some.inj he).symm
  · exact (Option.some.inj he).symm
  · exact Dht.AnnouncedExample.env_only (ttl := 3000) (List.mem_append_right _ (List.mem_cons_of_mem _ hd)) he

def cmds : List Cmd := [.tell false 130 (.query qid (storeQ second)),
  .deliver false 0 140 (Ryw.answers qid (storeQ second) Dht.writeStored), .deliver true 0 141 (fun _ => .done)]

def M (m : Message) : Prop := m ∈ [.query qid (storeQ second), .answer qid Dht.writeStored]

theorem apart : Apart Crypto.toy.sha M := by
  intro x y hx hy h
  simp only [M, List.mem_cons, List.not_mem_nil, or_false] at hx hy
  rcases hx with rfl | rfl <;> rcases hy with rfl | rfl <;> first | rfl | exact absurd h (by decide +kernel)

theorem cmds_ok : ∀ x ∈ cmds, CmdOk M x := by
  intro x hx
  simp only [cmds, List.mem_cons, List.not_mem_nil, or_false] at hx
  rcases hx with rfl | rfl | rfl
  · exact ⟨⟨rfl, by decide +kernel⟩, by simp [M]⟩
  · intro l p id' x a' _ h
    simp only [Ryw.answers] at h
    split at h
    · rename_i e
      cases h
      obtain ⟨-, -, rfl, -⟩ := Event.query.inj e
      exact ⟨by decide +kernel, by simp [M]⟩
    · cases h
  · intro _ _ _ _ _ _ h; cases h

theorem after_cmds : ((exec toyPair (show UInt8 from 1) toyRands toyTalk cmds).map fun ρ =>
      (ρ.log true, ρ.log false, ρ.told false)) =
    some (logOf Dht.Example.o [] [] [] (Dht.init adnl Dht.Example.localId 100) ds, [(.answer qid Dht.writeStored, .done)],
      [.query qid (storeQ second)]) := by
  decide +kernel

/-- C122_over_adnl_partial: the list is acknowledged over the connection and found later. -/
example : ∃ w, HasNode Crypto.toy second w (node 2 7) ∧
    (Dht.consumeQuery Dht.Example.o late (Dht.replay Dht.Example.o (Dht.init adnl Dht.Example.localId 100) (ds ++ after))
      findQ).2.1 = .answer (writeValueResult (.found w)) := by
  have h1 := after_cmds
  cases e1 : exec toyPair (show UInt8 from 1) toyRands toyTalk cmds with
  | none => rw [e1] at h1; cases h1
  | some ρ₁ =>
    rw [e1] at h1
    simp only [Option.map_some, Option.some.injEq, Prod.mk.injEq] at h1
    exact C122_over_adnl_partial Crypto.toy_lawful toyPair toyPair_fits M (fun _ => False) apart toyTalk ρ₁
      (toyTalk_start _)
      (exec_goes (fun _ => rfl) _ _ _ _ (fun _ => rfl) cmds _ _ _ (.refl _) cmds_ok e1) false
      Dht.Example.o _ _ _ [] [] [] (fun _ h => by cases h) ds after
      (fun d hd => by
        simp only [ds, List.mem_cons, List.not_mem_nil, or_false] at hd
        rcases hd with rfl | rfl <;> trivial)
      h1.1 qid (storeQ second) second (node 2 7) ⟨_, store_says second_wf, rfl⟩ rfl
      ⟨_, second_nodes, List.mem_cons_self⟩ second_valid
      (by intro x hx; rw [h1.2.2] at hx; cases List.mem_singleton.mp hx; rfl)
      .done (by rw [h1.2.1]; simp)
      (by
        rintro x y ⟨d, hd, hx⟩ ⟨d', hd', hy⟩
        rcases offered hd hx with rfl | rfl <;> rcases offered hd' hy with rfl | rfl <;>
          (rintro (⟨h, -⟩ | ⟨h, -⟩) <;> exact h rfl))
      (fun d hd e he m => by rw [env_only hd he]; exact List.Perm.refl _)
      ⟨fun _ => 2, (fun d hd x nodes hx hn => by
        rcases offered hd hx with rfl | rfl
        · rw [first_nodes] at hn
          cases hn
          exact (by decide : 1 ≤ 2)
        · rw [second_nodes] at hn
          cases hn
          exact (by decide : 2 ≤ 2)), by simp [ds, after]⟩
      (fun d hd e he => by rw [env_only hd he]; decide)
      (fun d hd t h => by
        simp only [ds, List.cons_append, List.nil_append, List.mem_cons] at hd
        rcases hd with rfl | rfl | hd
        · exact h.elim
        · exact h.elim
        · exact collected d hd t h)
      (fun e l p x hx d hd w hw _ => by
        rcases offered (List.mem_append_left _ hd) hw with rfl | rfl <;> exact .inl (by decide))
      late findQ 5 (by decide) (by decide) (by decide) find_says

end AnnOver

end Verif.LongTrip
