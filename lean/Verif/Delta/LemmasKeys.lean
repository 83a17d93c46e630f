import Verif.Svc.LemmasSave

/-! # Lemmas: properties of the accounts that every operation of a store keeps -/
namespace Fastroll.Delta
open Fastroll.Pvm Fastroll.Svc

/-- `P` is kept by the operations of the store that a host function of `host` uses: the ones on its own
account, the creation of an account in `T` and the ejection of one in `E`. -/
structure Keeps {β : Type} (S : Store β) (P : β → Prop) (T E : Nat → Prop) (host : Nat) : Prop where
  info : ∀ bs s r bs', S.info bs s = (r, bs') → P bs → P bs'
  modify : ∀ bs f bs', S.modify bs host f = some bs' → P bs → P bs'
  footprints : ∀ bs d d' bs', S.footprints bs host d d' = some bs' → P bs → P bs'
  existsAct : ∀ bs s r bs', S.existsAct bs s = (r, bs') → P bs → P bs'
  create : ∀ bs s m, T s → P bs → P (S.create bs s m)
  getS : ∀ bs s k r bs', S.getS bs s k = (r, bs') → P bs → P bs'
  getP : ∀ bs s k r bs', S.getP bs s k = (r, bs') → P bs → P bs'
  getL : ∀ bs s k r bs', S.getL bs s k = (r, bs') → P bs → P bs'
  insS : ∀ bs s k v bs', S.insS bs s k v = some bs' → P bs → P bs'
  insL : ∀ bs s k v bs', S.insL bs s k v = some bs' → P bs → P bs'
  remS : ∀ bs s k, P bs → P (S.remS bs s k)
  remP : ∀ bs s k, P bs → P (S.remP bs s k)
  remL : ∀ bs s k, P bs → P (S.remL bs s k)
  eject : ∀ bs e k bs', E e → S.eject bs e k = some bs' → P bs → P bs'

variable {β : Type} {S : Store β} {P : β → Prop} {T E : Nat → Prop} {env : Env} {vm : VM} {x : Ctx β}

theorem Keeps.sub {host : Nat} (K : Keeps S P T E host) {bs bs' : β} {n : Nat} (h : subBalance S bs host n = some bs') (hp : P bs) : P bs' := by
  unfold subBalance at h
  split at h
  · cases h
  · rename_i m b1 h1
    split at h
    · exact K.modify _ _ _ h (K.info _ _ _ _ h1 hp)
    · cases h

theorem Keeps.add {host : Nat} (K : Keeps S P T E host) {bs bs' : β} {n : Nat} (h : addBalance S bs host n = some bs') (hp : P bs) : P bs' := by
  unfold addBalance at h
  split at h
  · cases h
  · rename_i m b1 h1
    split at h
    · exact K.modify _ _ _ h (K.info _ _ _ _ h1 hp)
    · cases h

theorem Keeps.push {host : Nat} (K : Keeps S P T E host) {bs bs' : β} {s t : Nat} {k : LKey} (h : S.push bs s k t = some bs') (hp : P bs) : P bs' := by
  unfold Store.push at h
  split at h
  · cases h
  · rename_i m b1 h1
    split at h
    · exact K.insL _ _ _ _ _ h (K.getL _ _ _ _ _ h1 hp)
    · cases h

theorem Keeps.drain {host : Nat} (K : Keeps S P T E host) {bs bs' : β} {s : Nat} {k : LKey} (h : S.drain bs s k = some bs') (hp : P bs) : P bs' := by
  unfold Store.drain at h
  split at h
  · rename_i b1 h1; cases h; exact K.getL _ _ _ _ _ h1 hp
  · rename_i m b1 h1
    exact K.insL _ _ _ _ _ h (K.getL _ _ _ _ _ h1 hp)

theorem Keeps.extend {host : Nat} (K : Keeps S P T E host) {bs bs' : β} {s : Nat} {k : LKey} {ts : List Nat} (h : S.extend bs s k ts = some bs') (hp : P bs) : P bs' := by
  unfold Store.extend at h
  split at h
  · cases h
  · rename_i m b1 h1
    split at h
    · exact K.insL _ _ _ _ _ h (K.getL _ _ _ _ _ h1 hp)
    · cases h

theorem Keeps.new (K : Keeps S P T E x.host) (ht : T (newTarget vm x)) (hp : P x.p.boxes) : P (hostNew S env vm x).2.p.boxes := by
  unfold newTarget at ht
  have k1 := K.info
  have k2 := K.existsAct
  have k3 := fun bs bs' n h => K.sub (bs := bs) (bs' := bs') (n := n) h
  have k4 := K.create
  have k5 := K.insL
  unfold hostNew addAccount
  try dsimp only
  repeat' split
  all_goals first | exact hp | skip
  all_goals grind [Ctx.setBoxes]

theorem Keeps.ejects (K : Keeps S P T E x.host) (he : ∀ e, u32? vm 7 = some e → e ≠ x.host → E e) (hp : P x.p.boxes) :
    P (hostEject S env vm x).2.p.boxes := by
  have k1 := K.info
  have k2 := K.getL
  have k3 := fun bs bs' n h => K.add (bs := bs) (bs' := bs') (n := n) h
  have k4 := K.eject
  unfold hostEject
  try dsimp only
  repeat' split
  all_goals first | exact hp | skip
  all_goals grind [Ctx.setBoxes]

theorem Keeps.drop {host : Nat} (K : Keeps S P T E host) (hh : x.host = host) {bs : β} {k : Bytes} {l : Nat} (hp : P bs) :
    P (dropRequest S x bs k l).2.p.boxes := by
  subst hh
  have k1 := K.footprints
  have k2 := K.remP
  have k3 := K.remL
  unfold dropRequest
  try dsimp only
  repeat' split
  all_goals grind [Ctx.setBoxes]

theorem Keeps.forget (K : Keeps S P T E x.host) (hp : P x.p.boxes) : P (hostForget S env vm x).2.p.boxes := by
  have k1 := K.getL
  have k2 := fun bs bs' s t k h => K.push (bs := bs) (bs' := bs') (s := s) (t := t) (k := k) h
  have k3 := fun bs bs' s k h => K.drain (bs := bs) (bs' := bs') (s := s) (k := k) h
  have k4 := fun bs bs' s k ts h => K.extend (bs := bs) (bs' := bs') (s := s) (k := k) (ts := ts) h
  have k5 := fun bs k l h => K.drop (bs := bs) (k := k) (l := l) rfl h
  unfold hostForget
  try dsimp only
  repeat' split
  all_goals first | exact hp | skip
  all_goals grind [Ctx.setBoxes]

theorem Keeps.solicit (K : Keeps S P T E x.host) (hp : P x.p.boxes) : P (hostSolicit S env vm x).2.p.boxes := by
  have k1 := K.getL
  have k2 := K.insL
  have k3 := K.info
  have k4 := K.footprints
  unfold hostSolicit
  try dsimp only
  repeat' split
  all_goals first | exact hp | skip
  all_goals grind [Ctx.setBoxes]

theorem Keeps.write (K : Keeps S P T E x.host) (hp : P x.p.boxes) : P (hostWrite S env vm x).2.p.boxes := by
  have k1 := K.getS
  have k2 := K.insS
  have k3 := K.info
  have k4 := K.footprints
  have k5 := K.remS
  have k6 : ∀ bs s d r bs', affordable S bs s d = (r, bs') → P bs → P bs' := by
    intro bs s d r bs' h hp
    unfold affordable at h
    repeat' split at h
    all_goals grind
  have k7 : ∀ bs s k v bs', storeValue S bs s k v = some bs' → P bs → P bs' := by
    intro bs s k v bs' h hp
    cases v <;> unfold storeValue at h <;> grind
  unfold hostWrite
  try dsimp only
  repeat' split
  all_goals first | exact hp | skip
  all_goals grind [Ctx.setBoxes]

theorem Keeps.transfer (K : Keeps S P T E x.host) (hp : P x.p.boxes) : P (hostTransfer S env vm x).2.p.boxes := by
  have k1 := K.info
  have k3 := fun bs bs' n h => K.sub (bs := bs) (bs' := bs') (n := n) h
  unfold hostTransfer
  try dsimp only
  repeat' split
  all_goals first | exact hp | skip
  all_goals grind [Ctx.setBoxes]

theorem Keeps.upgrade (K : Keeps S P T E x.host) (hp : P x.p.boxes) : P (hostUpgrade S env vm x).2.p.boxes := by
  have k1 := K.modify
  unfold hostUpgrade
  try dsimp only
  repeat' split
  all_goals first | exact hp | skip
  all_goals grind [Ctx.setBoxes]

theorem Keeps.query (K : Keeps S P T E x.host) (hp : P x.p.boxes) : P (hostQuery S env vm x).2.p.boxes := by
  have k1 := K.getL
  unfold hostQuery
  try dsimp only
  repeat' split
  all_goals first | exact hp | skip
  all_goals grind [Ctx.setBoxes]

theorem Keeps.provide (K : Keeps S P T E x.host) (hp : P x.p.boxes) : P (hostProvide S env vm x).2.p.boxes := by
  have k1 := K.info
  have k2 := K.getL
  unfold hostProvide
  try dsimp only
  repeat' split
  all_goals first | exact hp | skip
  all_goals grind [Ctx.setBoxes]

theorem Keeps.lookup (K : Keeps S P T E x.host) (hp : P x.p.boxes) : P (hostLookup S env vm x).2.p.boxes := by
  have k1 := K.getP
  unfold hostLookup
  try dsimp only
  repeat' split
  all_goals first | exact hp | skip
  all_goals grind [Ctx.setBoxes]

theorem Keeps.read (K : Keeps S P T E x.host) (hp : P x.p.boxes) : P (hostRead S env vm x).2.p.boxes := by
  have k1 := K.getS
  unfold hostRead
  try dsimp only
  repeat' split
  all_goals first | exact hp | skip
  all_goals grind [Ctx.setBoxes]

theorem Keeps.infos (K : Keeps S P T E x.host) (hp : P x.p.boxes) : P (hostInfo S env vm x).2.p.boxes := by
  have k1 := K.info
  unfold hostInfo
  try dsimp only
  repeat' split
  all_goals first | exact hp | skip
  all_goals grind [Ctx.setBoxes]

theorem Keeps.plain {f : HostFn β} (hf : f = hostGas ∨ f = hostFetch ∨ f = hostBless ∨ f = hostAssign ∨ f = hostDesignate ∨ f = hostYield) (hp : P x.p.boxes) :
    P (f env vm x).2.p.boxes := by
  rcases hf with h | h | h | h | h | h <;> subst h
  · unfold hostGas; split <;> exact hp
  · unfold hostFetch; repeat' split
    all_goals exact hp
  · unfold hostBless; dsimp only; repeat' split
    all_goals exact hp
  · unfold hostAssign; dsimp only; repeat' split
    all_goals exact hp
  · unfold hostDesignate; dsimp only; repeat' split
    all_goals exact hp
  · unfold hostYield; repeat' split
    all_goals exact hp

theorem Keeps.fn {h : Nat} {f : HostFn β} (hf : accFn S h = some f) (K : Keeps S P T E x.host) (ht : h = 18 → T (newTarget vm x))
    (he : h = 21 → ∀ e, u32? vm 7 = some e → e ≠ x.host → E e) (hp : P x.p.boxes) : P (f env vm x).2.p.boxes := by
  have kp := fun (f : HostFn β) h => Keeps.plain (env := env) (vm := vm) (f := f) h hp
  unfold accFn at hf
  by_cases c : h = 0
  · rw [if_pos c] at hf; cases hf; exact kp _ (by simp)
  rw [if_neg c] at hf; clear c
  by_cases c : h = 1
  · rw [if_pos c] at hf; cases hf; exact kp _ (by simp)
  rw [if_neg c] at hf; clear c
  by_cases c : h = 2
  · rw [if_pos c] at hf; cases hf; exact K.lookup hp
  rw [if_neg c] at hf; clear c
  by_cases c : h = 3
  · rw [if_pos c] at hf; cases hf; exact K.read hp
  rw [if_neg c] at hf; clear c
  by_cases c : h = 4
  · rw [if_pos c] at hf; cases hf; exact K.write hp
  rw [if_neg c] at hf; clear c
  by_cases c : h = 5
  · rw [if_pos c] at hf; cases hf; exact K.infos hp
  rw [if_neg c] at hf; clear c
  by_cases c : h = 14
  · rw [if_pos c] at hf; cases hf; exact kp _ (by simp)
  rw [if_neg c] at hf; clear c
  by_cases c : h = 15
  · rw [if_pos c] at hf; cases hf; exact kp _ (by simp)
  rw [if_neg c] at hf; clear c
  by_cases c : h = 16
  · rw [if_pos c] at hf; cases hf; exact kp _ (by simp)
  rw [if_neg c] at hf; clear c
  by_cases c : h = 18
  · rw [if_pos c] at hf; cases hf; exact K.new (ht c) hp
  rw [if_neg c] at hf; clear c
  by_cases c : h = 19
  · rw [if_pos c] at hf; cases hf; exact K.upgrade hp
  rw [if_neg c] at hf; clear c
  by_cases c : h = 20
  · rw [if_pos c] at hf; cases hf; exact K.transfer hp
  rw [if_neg c] at hf; clear c
  by_cases c : h = 21
  · rw [if_pos c] at hf; cases hf; exact K.ejects (he c) hp
  rw [if_neg c] at hf; clear c
  by_cases c : h = 22
  · rw [if_pos c] at hf; cases hf; exact K.query hp
  rw [if_neg c] at hf; clear c
  by_cases c : h = 23
  · rw [if_pos c] at hf; cases hf; exact K.solicit hp
  rw [if_neg c] at hf; clear c
  by_cases c : h = 24
  · rw [if_pos c] at hf; cases hf; exact K.forget hp
  rw [if_neg c] at hf; clear c
  by_cases c : h = 25
  · rw [if_pos c] at hf; cases hf; exact kp _ (by simp)
  rw [if_neg c] at hf; clear c
  by_cases c : h = 26
  · rw [if_pos c] at hf; cases hf; exact K.provide hp
  rw [if_neg c] at hf; cases hf

/-- A call keeps `P` of the regular context. -/
theorem Keeps.call {h : Nat} {q : Pair β} (K : Keeps S P T E q.x.host) (ht : h = 18 → T (newTarget vm q.x))
    (he : h = 21 → ∀ e, u32? vm 7 = some e → e ≠ q.x.host → E e) (hx : P q.x.p.boxes) :
    P (accHost S env h vm q).2.x.p.boxes := by
  rcases accHost_cases S env h vm q with c | ⟨_, c⟩ | ⟨f, c1, c2⟩
  · rw [c]; exact hx
  · rw [c]; exact hx
  · rw [c2]; exact K.fn c1 ht he hx

theorem call_y (S : Store β) (env : Env) (h : Nat) (vm : VM) (q : Pair β) :
    (accHost S env h vm q).2.y = q.y ∨ (accHost S env h vm q).2.y = q.x := by
  rcases accHost_cases S env h vm q with c | ⟨_, c⟩ | ⟨f, c1, c2⟩
  · rw [c]; exact .inl rfl
  · rw [c]; exact .inr rfl
  · rw [c2]; exact .inl rfl

/-! ## Three instances -/

theorem keeps_box (g : Global) (s : Nat) (host : Nat) : Keeps (boxStore g) (fun bs => (boxGet bs s).isSome) (fun _ => True) (fun e => e ≠ s) host := by
  have he : ∀ bs t, (boxGet bs s).isSome → (boxGet (ensure g bs t) s).isSome := by
    intro bs t h
    unfold ensure
    repeat' split
    all_goals first | exact h | (rw [boxGet_set]; split <;> first | rfl | exact h)
  have hset : ∀ bs t b, (boxGet bs s).isSome → (boxGet (boxSet bs t b) s).isSome := by
    intro bs t b h; rw [boxGet_set]; split <;> first | rfl | exact h
  constructor
  · intro bs t r bs' h hp
    simp only [boxStore, getMeta] at h
    split at h <;> cases h <;> exact he _ _ hp
  · intro bs f bs' h hp
    simp only [boxStore, modifyMeta] at h
    repeat' split at h
    all_goals first | cases h | skip
    exact hset _ _ _ (he _ _ hp)
  · intro bs d d' bs' h hp
    simp only [boxStore, updateFootprints] at h
    repeat' split at h
    all_goals first | (cases h; done) | (cases h; exact he _ _ hp) | (cases h; exact hset _ _ _ (he _ _ hp))
  · intro bs t r bs' h hp
    simp only [boxStore, existsActive] at h
    split at h <;> cases h <;> exact he _ _ hp
  · intro bs t m _ hp; exact hset _ _ _ hp
  · intro bs t k r bs' h hp
    simp only [boxStore, getStorage] at h
    split at h <;> cases h <;> first | exact he _ _ hp | exact hset _ _ _ (he _ _ hp)
  · intro bs t k r bs' h hp
    simp only [boxStore, getPreimage] at h
    split at h <;> cases h <;> first | exact he _ _ hp | exact hset _ _ _ (he _ _ hp)
  · intro bs t k r bs' h hp
    simp only [boxStore, getLookup] at h
    split at h <;> cases h <;> first | exact he _ _ hp | exact hset _ _ _ (he _ _ hp)
  · intro bs t k v bs' h hp
    simp only [boxStore, insertStorage] at h
    split at h <;> cases h
    exact hset _ _ _ (he _ _ hp)
  · intro bs t k v bs' h hp
    simp only [boxStore, insertLookup] at h
    split at h <;> cases h
    exact hset _ _ _ (he _ _ hp)
  · intro bs t k hp
    simp only [boxStore, removeStorage]
    split <;> first | exact he _ _ hp | exact hset _ _ _ (he _ _ hp)
  · intro bs t k hp
    simp only [boxStore, removePreimage]
    split <;> first | exact he _ _ hp | exact hset _ _ _ (he _ _ hp)
  · intro bs t k hp
    simp only [boxStore, removeLookup]
    split <;> first | exact he _ _ hp | exact hset _ _ _ (he _ _ hp)
  · intro bs e k bs' hne h hp
    have hrp : ∀ bs k, (boxGet bs s).isSome → (boxGet (removePreimage g bs e k) s).isSome := by
      intro bs k hp
      unfold removePreimage
      dsimp only
      split <;> first | exact he _ _ hp | exact hset _ _ _ (he _ _ hp)
    have hrl : ∀ bs k, (boxGet bs s).isSome → (boxGet (removeLookup g bs e k) s).isSome := by
      intro bs k hp
      unfold removeLookup
      dsimp only
      split <;> first | exact he _ _ hp | exact hset _ _ _ (he _ _ hp)
    have hgm : ∀ bs r bs', getMeta g bs e = (r, bs') → (boxGet bs s).isSome → (boxGet bs' s).isSome := by
      intro bs r bs' h hp
      unfold getMeta at h
      dsimp only at h
      split at h <;> cases h <;> exact he _ _ hp
    have hgc : ∀ bs r bs', getMetaClean g bs e = (r, bs') → (boxGet bs s).isSome → (boxGet bs' s).isSome := by
      intro bs r bs' h hp
      unfold getMetaClean at h
      dsimp only at h
      split at h <;> cases h <;> exact he _ _ hp
    have her : ∀ bs, (boxGet bs s).isSome → (boxGet (boxErase bs e) s).isSome := by
      intro bs hp
      rw [boxGet_erase]; rw [if_neg (Ne.symm hne)]; exact hp
    simp only [boxStore, ejectAccount] at h
    repeat' split at h
    · cases h
    · rename_i h1 _ _ h2
      cases h; exact her _ (hgc _ _ _ h2 (hgm _ _ _ h1 hp))
    · cases h
    · rename_i h1 _ _ _ h2 _ _ _
      cases h
      exact hset _ _ _ (he _ _ (hrl _ _ (hrp _ _ (hgc _ _ _ h2 (hgm _ _ _ h1 hp)))))

/-- Without ejections, an account that exists goes on to exist. -/
theorem keeps_some (s : Nat) (host : Nat) : Keeps mapStore (fun a => (a.metas s).isSome) (fun _ => True) (fun e => e ≠ s) host := by
  constructor <;> simp only [mapStore, Option.map_eq_some_iff] <;> intros <;>
    first | (obtain ⟨_, h, rfl⟩ := ‹∃ _, _ ∧ _ = _›; grind [upd]) | grind [upd]

/-- Without creations, one that does not exist goes on not to. -/
theorem keeps_none (s : Nat) (host : Nat) : Keeps mapStore (fun a => a.metas s = none) (fun t => t ≠ s) (fun _ => True) host := by
  constructor <;> simp only [mapStore, Option.map_eq_some_iff] <;> intros <;>
    first | (obtain ⟨_, h, rfl⟩ := ‹∃ _, _ ∧ _ = _›; grind [upd]) | grind [upd]

end Fastroll.Delta
