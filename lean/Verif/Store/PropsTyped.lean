import Verif.Store.Props
import Verif.Store.TypedModel
import Verif.Comp.Props
/-
C76 for the values the node stores: the state components and service entries with their codecs.
-/
namespace Fastroll.Store
open Fastroll StateCache
open Fastroll.Codec (paperFixed)

/-! ### Specification -/

/-- Well-formed values.  A ticket accumulator is given by its tickets in increasing order; how the heap lies in memory
does not show in the state (C60_heap_order). -/
def Val.Ok (D : Comp.Dims) : Val → Prop
  | .pool x => Comp.Paper.PoolOk D x
  | .queue x => Comp.Paper.QueueOk D x
  | .history x => Comp.Paper.HistoryOk D x
  | .safrole x => Comp.Paper.SafroleOk D x ∧ Wire.Spec.Increasing (x.tickets.map Wire.Ticket.id)
  | .disputes x => Comp.Paper.DisputesOk x
  | .entropy x => Comp.Paper.EntropyOk x
  | .keys x => Comp.Paper.KeysOk D x
  | .pending x => Comp.Paper.PendingOk D x
  | .slot x => x < 2 ^ 32
  | .privileges x => Comp.Paper.PrivilegesOk D x
  | .statistics x => Comp.Paper.StatisticsOk D x
  | .ready x => Comp.Paper.ReadyOk D x
  | .done x => Comp.Paper.DoneOk D x
  | .outputs x => Comp.Paper.OutputsOk x
  | .metadata x => Comp.Paper.MetadataOk x
  | .lookups x => Comp.Paper.LookupsOk x
  | .blob _ => True

/-- The layouts of the Gray Paper's appendix D (statistics as in C60_statistics_partial). -/
def Val.paper : Val → Trie.Bytes
  | .pool x => Comp.Paper.pool x
  | .queue x => Comp.Paper.queue x
  | .history x => Comp.Paper.history x
  | .safrole x => Comp.Paper.safrole x
  | .disputes x => Comp.Paper.disputes x
  | .entropy x => Comp.Paper.entropy x
  | .keys x => Comp.Paper.keys x
  | .pending x => Comp.Paper.pending x
  | .slot x => paperFixed 4 x
  | .privileges x => Comp.Paper.privileges x
  | .statistics x => Comp.Paper.statistics (paperFixed 4) x
  | .ready x => Comp.Paper.ready x
  | .done x => Comp.Paper.done x
  | .outputs x => Comp.Paper.outputs x
  | .metadata x => Comp.Paper.metadata x
  | .lookups x => Comp.Paper.lookups x
  | .blob x => x

/-- A value that belongs under a key. -/
def Fits (D : Comp.Dims) (ty : Key → Kind) (k : Key) (v : Val) : Prop := v.kind = ty k ∧ v.Ok D

/-! ### The codecs invert -/

theorem wrap_codes {α : Type} {e : Fastroll.Codec.Enc α} {d : Fastroll.Codec.Dec α} {ok : α → Prop} {s : α → Trie.Bytes}
    (h : Wire.Spec.Codes e d ok s) (f : α → Val) {a : α} (ha : ok a) : e a = .ok (s a) ∧ wrap f (Comp.reload d (s a)) = some (f a) := by
  refine ⟨(h a ha).1, ?_⟩
  rw [Comp.reload_codes h ha (h a ha).1]
  rfl

theorem val_codes (D : Comp.Dims) (hz : 0 < D.reportSize) (v : Val) (h : v.Ok D) :
    v.enc = .ok v.paper ∧ v.kind.dec D v.paper = some v := by
  cases v with
  | pool x => exact wrap_codes (Comp.pool_codes D) .pool h
  | queue x => exact wrap_codes (Comp.queue_codes D) .queue h
  | history x => exact wrap_codes (Comp.history_codes D) .history h
  | safrole x =>
    have hs : Comp.sortTickets x.tickets = x.tickets :=
      Comp.sorted_unique (Comp.sortTickets_sorted _ h.1.tickets.distinct) (List.pairwise_map.mp h.2)
        (Comp.sortTickets_perm _)
    obtain ⟨h1, h2⟩ := Comp.safrole_codes D x h.1
    rw [hs] at h1 h2
    refine ⟨h1, ?_⟩
    show wrap .safrole (Comp.reload (Comp.Safrole.dec D) (Comp.Paper.safrole x)) = _
    have h3 := h2 []
    rw [List.append_nil] at h3
    unfold Comp.reload
    rw [h3]
    rfl
  | disputes x => exact wrap_codes Comp.disputes_codes .disputes h
  | entropy x => exact wrap_codes Comp.entropy_codes .entropy h
  | keys x => exact wrap_codes (Comp.keys_codes D) .keys h
  | pending x => exact wrap_codes (Comp.pending_codes D) .pending h
  | slot x => exact wrap_codes Comp.slot_codes .slot h
  | privileges x => exact wrap_codes (Comp.privileges_codes D) .privileges h
  | statistics x => exact wrap_codes (Comp.statistics_codes D) .statistics h
  | ready x => exact wrap_codes (Comp.ready_codes D hz) .ready h
  | done x => exact wrap_codes (Comp.done_codes D) .done h
  | outputs x => exact wrap_codes Comp.outputs_codes .outputs h
  | metadata x => exact wrap_codes Comp.metadata_codes .metadata h
  | lookups x => exact wrap_codes Comp.lookups_codes .lookups h
  | blob x =>
    refine ⟨rfl, ?_⟩
    show wrap .blob (Comp.reload Comp.blobDec x) = _
    unfold Comp.reload
    rw [(Comp.C60_accounts.2.2 x).2]
    rfl

theorem typed_dec (D : Comp.Dims) (hz : 0 < D.reportSize) (ty : Key → Kind) (k : Key) (v : Val) (h : Fits D ty k v) :
    (typed D ty).dec k ((typed D ty).enc v) = some v := by
  obtain ⟨h1, h2⟩ := val_codes D hz v h.2
  show (ty k).dec D (match v.enc with | .ok b => b | .error _ => []) = some v
  rw [h1, ← h.1]
  exact h2

variable {V : Type} {env : Trie.Env} {C : Codec V} {T : Key → V → Prop} {k0 : Key}

theorem run_typed : ∀ (os : List (Op V)) {b : Spec.Abs Key V}, AllTyped T b → Proper T k0 b os →
    AllTyped T (Spec.run b (os.map Op.plain)).2
  | [], _, h, _ => h
  | _ :: os, _, h, hp => run_typed os (step_typed h _ hp.2.2.1) hp.2.2.2.2

theorem after_typed (os : List (Op V)) (hp : Proper T k0 empty os) (k : Key) (v : V)
    (h : (after os).2.committed k = some v) : T k v :=
  (run_typed os (typed_init T) hp).committed k v h

/-- **C76** The codecs of all state components and service entries satisfy what `C76_store_partial` asks of them, so:
through every proper history of operations on well-formed values, the state manager answers as the transaction on a map of
values does, and the root it serves is the Merklization of the Gray Paper's layouts of the committed values; or two
values in the state database collide. -/
theorem C76_components_partial (hfair : env.fair) (hH : ∀ x, (env.H x).length = 32) (D : Comp.Dims) (hz : 0 < D.reportSize)
    (ty : Key → Kind) (os : List (Op Val)) (hp : Proper (Fits D ty) k0 empty os) :
    ((run env (typed D ty) Sys.init os).1 = (after os).1.map Out.ofCache ∧
      (∃ kv, Represents Val.paper kv (after os).2.committed) ∧
      ∀ kv, Represents Val.paper kv (after os).2.committed →
        root (run env (typed D ty) Sys.init os).2 = .ok (Trie.Spec.root env.H kv)) ∨
    Collision env.H (run env (typed D ty) Sys.init os).2 := by
  have same : ∀ kv, Represents Val.paper kv (after os).2.committed ↔ Represents (typed D ty).enc kv (after os).2.committed := by
    have key : ∀ k v, (after os).2.committed k = some v → Val.paper v = (typed D ty).enc v := fun k v hv => by
      show _ = (match v.enc with | .ok b => b | .error _ => [])
      rw [(val_codes D hz v (after_typed os hp k v hv).2).1]
    intro kv
    unfold Represents
    refine and_congr_right fun _ => forall_congr' fun p => forall_congr' fun b => iff_congr Iff.rfl ?_
    constructor
    · rintro ⟨k, hk, v, hv, rfl⟩
      exact ⟨k, hk, v, hv, key k v hv⟩
    · rintro ⟨k, hk, v, hv, rfl⟩
      exact ⟨k, hk, v, hv, (key k v hv).symm⟩
  rcases C76_store_partial hfair hH (typed_dec D hz ty) os hp with ⟨h1, ⟨kv, h2⟩, h3⟩ | h
  · exact .inl ⟨h1, ⟨kv, (same kv).2 h2⟩, fun kv hkv => h3 kv ((same kv).1 hkv)⟩
  · exact .inr h

/-- **C76** The root commits to the values themselves: two proper histories of operations on well-formed values - types
of keys agreed on - that serve the same root have committed the same values under all keys, unless hashes clash. -/
theorem C76_components_bound_partial (hfair : env.fair) (hH : ∀ x, (env.H x).length = 32) (D : Comp.Dims)
    (hz : 0 < D.reportSize) (ty : Key → Kind) (os os' : List (Op Val)) {k1 : Key} (hp : Proper (Fits D ty) k0 empty os)
    (hp' : Proper (Fits D ty) k1 empty os')
    (h : root (run env (typed D ty) Sys.init os).2 = root (run env (typed D ty) Sys.init os').2) :
    (∀ k, (after os).2.committed k = (after os').2.committed k) ∨
    Collision env.H (run env (typed D ty) Sys.init os).2 ∨ Collision env.H (run env (typed D ty) Sys.init os').2 ∨
    ∃ kv kv', Represents (typed D ty).enc kv (after os).2.committed ∧ Represents (typed D ty).enc kv' (after os').2.committed ∧
      Trie.Spec.Clash env.H (Trie.Spec.inputs env.H 248 0 kv) (Trie.Spec.inputs env.H 248 0 kv') := by
  rcases C76_root_binds_partial hfair hH (typed_dec D hz ty) os os' hp hp' h with h1 | h1
  · refine .inl fun k => ?_
    have hk := h1 k
    cases e : (after os).2.committed k with
    | none =>
      cases e' : (after os').2.committed k with
      | none => rfl
      | some v' => rw [e, e'] at hk; cases hk
    | some v =>
      cases e' : (after os').2.committed k with
      | none => rw [e, e'] at hk; cases hk
      | some v' =>
        rw [e, e'] at hk
        injection hk with hk
        have a1 := typed_dec D hz ty k v (after_typed os hp k v e)
        have a2 := typed_dec D hz ty k v' (after_typed os' hp' k v' e')
        rw [hk, a2] at a1
        exact a1.symm
  · exact .inr h1

/-! ### An example: a slot, an entropy and a storage entry of more than 32 octets -/

/-- Types of the example's keys. -/
def exTy (k : Key) : Kind := if k = exA then .slot else if k = exB then .entropy else .blob

/-- Entropies. -/
def exEta (n : UInt8) : Val := .entropy (List.replicate 4 (List.replicate 32 n))

/-- Two commits with all entries evicted in between. -/
def exTypedOps : List (Op Val) :=
  [.add exA (.slot 7), .add exB (exEta 1), .add exC (.blob (List.replicate 100 3)), .commit,
   .evict exA, .evict exB, .evict exC, .update exB (fun _ => some (exEta 2)), .update exA (fun _ => some (.slot 8)), .commit,
   .evict exB, .get exB]

theorem exEta_ok (n : UInt8) : (exEta n).Ok Comp.exD := by
  show (List.replicate 4 (List.replicate 32 n)).length = 4 ∧ ∀ h ∈ List.replicate 4 (List.replicate 32 n), h.length = 32
  refine ⟨by rw [List.length_replicate], fun h hh => ?_⟩
  rw [(List.mem_replicate.1 hh).2, List.length_replicate]

/-- The kind of an answer. -/
def exShow : Out Val → Option Kind
  | .value (some v) => some v.kind
  | _ => none

theorem exTypedOps_proper : Proper (Fits Comp.exD exTy) exA empty exTypedOps := by
  have e : ∀ k, (empty : Spec.Abs Key Val).committed k = none := fun _ => rfl
  have nopanic : ∀ {o : StateCache.Out Val}, (match o with | .err _ => false | _ => true) = true → o ≠ .err .panic := by
    rintro o h rfl
    cases h
  refine ⟨by decide +kernel, nopanic (by decide +kernel), ⟨by decide +kernel, by show 7 < 2 ^ 32; decide⟩, .inl e, ?_⟩
  refine ⟨by decide +kernel, nopanic (by decide +kernel), ⟨by decide +kernel, exEta_ok 1⟩, .inl fun _ => rfl, ?_⟩
  refine ⟨by decide +kernel, nopanic (by decide +kernel), ⟨by decide +kernel, trivial⟩, .inl fun _ => rfl, ?_⟩
  refine ⟨by decide +kernel, nopanic (by decide +kernel), trivial, .inl fun _ => rfl, ?_⟩
  refine ⟨by decide +kernel, nopanic (by decide +kernel), trivial, .inr (by decide +kernel), ?_⟩
  refine ⟨by decide +kernel, nopanic (by decide +kernel), trivial, .inr (by decide +kernel), ?_⟩
  refine ⟨by decide +kernel, nopanic (by decide +kernel), trivial, .inr (by decide +kernel), ?_⟩
  refine ⟨by decide +kernel, nopanic (by decide +kernel), ?_, .inr (by decide +kernel), ?_⟩
  · intro v v' _ h
    injection h with h
    rw [← h]
    exact ⟨by decide +kernel, exEta_ok 2⟩
  refine ⟨by decide +kernel, nopanic (by decide +kernel), ?_, .inr (by decide +kernel), ?_⟩
  · intro v v' _ h
    injection h with h
    rw [← h]
    exact ⟨by decide +kernel, by show 8 < 2 ^ 32; decide⟩
  refine ⟨by decide +kernel, nopanic (by decide +kernel), trivial, .inr (by decide +kernel), ?_⟩
  refine ⟨by decide +kernel, nopanic (by decide +kernel), trivial, .inr (by decide +kernel), ?_⟩
  refine ⟨by decide +kernel, nopanic (by decide +kernel), trivial, .inr (by decide +kernel), ?_⟩
  trivial

example : Proper (Fits Comp.exD exTy) exA empty exTypedOps ∧
    ((run Trie.exEnv (typed Comp.exD exTy) Sys.init exTypedOps).1.map exShow).getLast? = some (some .entropy) ∧
    ((match root (run Trie.exEnv (typed Comp.exD exTy) Sys.init exTypedOps).2 with | .ok r => r | .error _ => []) =
      Trie.Spec.root Trie.exHash [(exC.1, List.replicate 100 3), (exB.1, List.replicate 128 2), (exA.1, [8, 0, 0, 0])]) :=
  ⟨exTypedOps_proper, by decide +kernel⟩

/-- C76 (manager.rs 942-949).  What is decoded under a key has the type of the key, and octets that the decoder of that type
rejects are an error, not a value. -/
theorem C76_typed_reads (D : Comp.Dims) (ty : Key → Kind) (k : Key) (b : Trie.Bytes) (v : Val) (h : (typed D ty).dec k b = some v) :
    v.kind = ty k := by
  change (ty k).dec D b = some v at h
  have key : ∀ {α : Type} (f : α → Val) (r : Except Fastroll.Codec.Err α), wrap f r = some v → ∃ a, v = f a := fun f r hr => by
    cases r with
    | ok a =>
      injection hr with hr
      exact ⟨a, hr.symm⟩
    | error _ => cases hr
  cases hk : ty k <;> rw [hk] at h <;> obtain ⟨a, rfl⟩ := key _ _ h <;> rfl

example (D : Comp.Dims) (k : Key) : (typed D fun _ => .slot).dec k [1, 0] = none ∧ ((typed D fun _ => .slot).dec k [1, 0, 0, 0]).isSome = true :=
  ⟨rfl, rfl⟩

end Fastroll.Store
