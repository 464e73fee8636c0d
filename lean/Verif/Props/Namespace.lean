import Verif.Lemmas.NsVisit
import Verif.Lemmas.NsLast
import Verif.Lemmas.EndToEnd
import Verif.Props.Serde
import Verif.Spec.Build
/-
C61: TypeScript namespaces.

The other properties of the instrumentation are about programs without namespaces; `C61_plain` shows that nothing is
lost by leaving them out of the model. The body of a namespace gets a coverage function of its own with the data
collected so far. If more is collected after the namespace the two functions have different hashes, and the one that is
called later takes the place of the other: `C61_taken_over_partial`. The counts of one of them are lost. If nothing is registered
after the namespace the two functions have the same data (`C61_last_partial`), and nothing is lost (`C61_shared_partial`).
-/
namespace Verif
open Node Runtime Js Template

/-- C61. The instrumentation of a program without namespaces is the one the other properties are about. -/
theorem C61_plain (cx : Ctx) (fuel : Nat) (path : String) (sm : Option SourceMap) {p : Node} (h : p.any Kind.isNs = false) :
    Visitor.nsInstrument cx fuel path sm p = Visitor.instrument cx fuel path sm p :=
  Visitor.nsInstrument_same cx fuel path sm h

/-- Hits of the instance loaded first (`false`) and of the one loaded second (`true`). -/
def twoHits (l : List (Bool × Counter)) : List Event := l.map fun x => .hit (if x.1 then 1 else 0) x.2

/-- The counters hit by one of the two instances. -/
def hitsBy (b : Bool) (l : List (Bool × Counter)) : List Counter := (l.filter fun x => x.1 = b).map Prod.snd

theorem hits_first (i : Input) (cur : IndexMap String Nat) : ∀ (l : List Counter) (d : FileCoverage),
    Books.after ⟨[(i, d)], cur, [0]⟩ (l.map (.hit 0)) = ⟨[(i, d.hits l)], cur, [0]⟩
  | [], _ => rfl
  | c :: l, d => hits_first i cur l (d.hit c)

theorem hits_both (i j : Input) (cur : IndexMap String Nat) : ∀ (l : List (Bool × Counter)) (d e : FileCoverage),
    Books.after ⟨[(i, d), (j, e)], cur, [0, 1]⟩ (twoHits l) =
      ⟨[(i, d.hits (hitsBy false l)), (j, e.hits (hitsBy true l))], cur, [0, 1]⟩
  | [], _, _ => rfl
  | (true, c) :: l, d, e => hits_both i j cur l d (e.hit c)
  | (false, c) :: l, d, e => hits_both i j cur l (d.hit c) e

theorem allowed_first (gcv : String) (i : Input) (cur : IndexMap String Nat) : ∀ (l : List Counter) (d : FileCoverage),
    (∀ c ∈ l, (d.count c).isSome) → Books.AllowsAll gcv ⟨[(i, d)], cur, [0]⟩ (l.map (.hit 0))
  | [], _, _ => trivial
  | c :: l, d, h => ⟨⟨0, rfl, _, rfl, h c (by simp)⟩, allowed_first gcv i cur l (d.hit c) fun k hk => by
      rw [show d.hit c = d.hits [c] from rfl, FileCoverage.hits_some]
      exact h k (by simp [hk])⟩

theorem allowed_both (gcv : String) (i j : Input) (cur : IndexMap String Nat) : ∀ (l : List (Bool × Counter)) (d e : FileCoverage),
    (∀ c ∈ hitsBy false l, (d.count c).isSome) → (∀ c ∈ hitsBy true l, (e.count c).isSome) →
      Books.AllowsAll gcv ⟨[(i, d), (j, e)], cur, [0, 1]⟩ (twoHits l)
  | [], _, _, _, _ => trivial
  | (true, c) :: l, d, e, h1, h2 => ⟨⟨1, rfl, _, rfl, h2 c (by simp [hitsBy])⟩,
      allowed_both gcv i j cur l d (e.hit c) h1 fun k hk => by
        rw [show e.hit c = e.hits [c] from rfl, FileCoverage.hits_some]
        exact h2 k (List.mem_cons_of_mem _ hk)⟩
  | (false, c) :: l, d, e, h1, h2 => ⟨⟨0, rfl, _, rfl, h1 c (by simp [hitsBy])⟩,
      allowed_both gcv i j cur l (d.hit c) e (fun k hk => by
        rw [show d.hit c = d.hits [c] from rfl, FileCoverage.hits_some]
        exact h1 k (List.mem_cons_of_mem _ hk)) h2⟩

/-- C61. Two coverage functions of one file with different hashes, called one after the other: whatever was counted by
the first one before and after the second one is called, the file is reported with the data of the second one and its
hits alone. -/
theorem C61_taken_over_partial (w : World) {gcv : String} {st : State} (hp : Pristine gcv st) {i j : Input} (hi : Proper gcv i)
    (hj : Proper gcv j) (hpath : i.path = j.path) (hh : i.hash ≠ j.hash) (before : List Counter) (after : List (Bool × Counter))
    (hb : ∀ c ∈ before, (i.data.count c).isSome) (ha : ∀ c ∈ hitsBy false after, (i.data.count c).isSome)
    (ha' : ∀ c ∈ hitsBy true after, (j.data.count c).isSome) :
    ∃ st' insts, play w [] (.load i :: before.map (.hit 0) ++ .load j :: twoHits after) st = .ok (st', insts) ∧
      Reports gcv st' j.path j (j.data.hits (hitsBy true after)) := by
  have h0 : Books.empty.load i = ⟨[(i, i.data)], IndexMap.insert [] i.path 0, [0]⟩ := rfl
  have hget : ∀ v : Nat, IndexMap.get (IndexMap.insert (IndexMap.insert [] i.path 0) j.path v) j.path = some v := fun v => by
    rw [IndexMap.get_insert, if_pos rfl]
  have h1 : ∀ d : FileCoverage, Books.load ⟨[(i, d)], IndexMap.insert [] i.path 0, [0]⟩ j =
      ⟨[(i, d), (j, j.data)], IndexMap.insert (IndexMap.insert [] i.path 0) j.path 1, [0, 1]⟩ := fun d => by
    have : Books.kept ⟨[(i, d)], IndexMap.insert [] i.path 0, [0]⟩ j = none := by
      unfold Books.kept
      simp only
      rw [← hpath, IndexMap.get_insert, if_pos rfl]
      simp [hh]
    unfold Books.load
    rw [this]
    rfl
  have h2 : Books.empty.after (.load i :: before.map (.hit 0) ++ .load j :: twoHits after) =
      ⟨[(i, (i.data.hits before).hits (hitsBy false after)), (j, j.data.hits (hitsBy true after))],
        IndexMap.insert (IndexMap.insert [] i.path 0) j.path 1, [0, 1]⟩ := by
    rw [after_append]
    show ((Books.after (Books.empty.load i) (before.map (.hit 0))).load j).after (twoHits after) = _
    rw [h0, hits_first, h1, hits_both]
  have h3 : Books.empty.AllowsAll gcv (.load i :: before.map (.hit 0) ++ .load j :: twoHits after) := by
    refine allows_append.2 ⟨⟨hi, allowed_first gcv i _ before i.data hb⟩, ?_⟩
    show (Books.after (Books.empty.load i) (before.map (.hit 0))).AllowsAll gcv (.load j :: twoHits after)
    rw [h0, hits_first]
    refine ⟨hj, ?_⟩
    show Books.AllowsAll gcv (Books.load _ j) _
    rw [h1]
    exact allowed_both gcv i j _ after _ _ (fun c hc => by rw [FileCoverage.hits_some]; exact ha c hc) ha'
  obtain ⟨st', insts, a1, _, a3, _⟩ := C30_books_partial w hp _ h3
  refine ⟨st', insts, a1, a3 _ _ _ ?_⟩
  rw [h2]
  unfold Books.at
  simp only
  rw [hget]
  rfl

/-- C61. A namespace of a module after which there is nothing to instrument, but maybe imports, types and strings: the data of its function is the
data reported for the file. -/
theorem C61_last_partial {cx : Ctx} {fuel : Nat} {path : String} {sm : Option SourceMap} {g : Cat} {x : String} {msp sp nsp isp : Span}
    {a : String} {pre items post : List Node} {p' : Node} {cov : SourceCoverage} (hk : Kind.other g x ≠ nsKind)
    (hf : Hint.shouldIgnoreFile cx.cc cx.comments msp = false)
    (hpost : ∀ i ∈ post, Visitor.isDirectiveStmt i = true ∨ i.any Kind.isNs = false ∧ Node.Passive i)
    (hr : Visitor.nsInstrument cx fuel path sm
      (mk .module msp (pre ++ mk (.other g x) sp [mk (.ident a) isp [], mk nsKind nsp items] :: post)) = .ok (p', cov)) :
    ∃ out body, p' = mk .module msp out ∧ mk (.other g x) sp [mk (.ident a) isp [], mk nsKind nsp body] ∈ out ∧
      mk .covDecl Span.dummy [mk (.other .misc (Serde.save cov.inner)) Span.dummy []] ∈ body :=
  Visitor.nsInstrument_last hk hf hpost hr

/-- C61. The same in a script. -/
theorem C61_script_partial {cx : Ctx} {fuel : Nat} {path : String} {sm : Option SourceMap} {g : Cat} {x : String} {msp sp nsp isp : Span}
    {a : String} {pre items post : List Node} {p' : Node} {cov : SourceCoverage} (hk : Kind.other g x ≠ nsKind)
    (hf : Hint.shouldIgnoreFile cx.cc cx.comments msp = false) (hpost : ∀ i ∈ post, i.any Kind.isNs = false ∧ Node.Passive i)
    (hr : Visitor.nsInstrument cx fuel path sm
      (mk .script msp (pre ++ mk (.other g x) sp [mk (.ident a) isp [], mk nsKind nsp items] :: post)) = .ok (p', cov)) :
    ∃ out body, p' = mk .script msp out ∧ mk (.other g x) sp [mk (.ident a) isp [], mk nsKind nsp body] ∈ out ∧
      mk .covDecl Span.dummy [mk (.other .misc (Serde.save cov.inner)) Span.dummy []] ∈ body :=
  Visitor.nsInstrument_script hk hf hpost hr

theorem hits_shared (i : Input) (cur : IndexMap String Nat) : ∀ (l : List (Bool × Counter)) (d : FileCoverage),
    Books.after ⟨[(i, d)], cur, [0, 0]⟩ (twoHits l) = ⟨[(i, d.hits (l.map Prod.snd))], cur, [0, 0]⟩
  | [], _ => rfl
  | (true, c) :: l, d => hits_shared i cur l (d.hit c)
  | (false, c) :: l, d => hits_shared i cur l (d.hit c)

theorem allowed_shared (gcv : String) (i : Input) (cur : IndexMap String Nat) : ∀ (l : List (Bool × Counter)) (d : FileCoverage),
    (∀ x ∈ l, (d.count x.2).isSome) → Books.AllowsAll gcv ⟨[(i, d)], cur, [0, 0]⟩ (twoHits l)
  | [], _, _ => trivial
  | (true, c) :: l, d, h => ⟨⟨0, rfl, _, rfl, h (true, c) (by simp)⟩, allowed_shared gcv i cur l (d.hit c) fun x hx => by
      rw [show d.hit c = d.hits [c] from rfl, FileCoverage.hits_some]
      exact h x (by simp [hx])⟩
  | (false, c) :: l, d, h => ⟨⟨0, rfl, _, rfl, h (false, c) (by simp)⟩, allowed_shared gcv i cur l (d.hit c) fun x hx => by
      rw [show d.hit c = d.hits [c] from rfl, FileCoverage.hits_some]
      exact h x (by simp [hx])⟩

/-- C61. Two coverage functions of one file with the same data: whichever of them counts, every count is reported. -/
theorem C61_shared_partial (w : World) {gcv : String} {st : State} (hp : Pristine gcv st) {i : Input} (hi : Proper gcv i)
    (before : List Counter) (after : List (Bool × Counter)) (hb : ∀ c ∈ before, (i.data.count c).isSome)
    (ha : ∀ x ∈ after, (i.data.count x.2).isSome) :
    ∃ st' insts, play w [] (.load i :: before.map (.hit 0) ++ .load i :: twoHits after) st = .ok (st', insts) ∧
      Reports gcv st' i.path i (i.data.hits (before ++ after.map Prod.snd)) := by
  have h0 : Books.empty.load i = ⟨[(i, i.data)], IndexMap.insert [] i.path 0, [0]⟩ := rfl
  have hget : IndexMap.get (IndexMap.insert [] i.path 0) i.path = some 0 := by rw [IndexMap.get_insert, if_pos rfl]
  have h1 : ∀ d : FileCoverage, Books.load ⟨[(i, d)], IndexMap.insert [] i.path 0, [0]⟩ i =
      ⟨[(i, d)], IndexMap.insert [] i.path 0, [0, 0]⟩ := fun d => by
    have : Books.kept ⟨[(i, d)], IndexMap.insert [] i.path 0, [0]⟩ i = some 0 := by
      unfold Books.kept
      simp only
      rw [hget]
      simp
    unfold Books.load
    rw [this]
    rfl
  have h2 : Books.empty.after (.load i :: before.map (.hit 0) ++ .load i :: twoHits after) =
      ⟨[(i, (i.data.hits before).hits (after.map Prod.snd))], IndexMap.insert [] i.path 0, [0, 0]⟩ := by
    rw [after_append]
    show ((Books.after (Books.empty.load i) (before.map (.hit 0))).load i).after (twoHits after) = _
    rw [h0, hits_first, h1, hits_shared]
  have h3 : Books.empty.AllowsAll gcv (.load i :: before.map (.hit 0) ++ .load i :: twoHits after) := by
    refine allows_append.2 ⟨⟨hi, allowed_first gcv i _ before i.data hb⟩, ?_⟩
    show (Books.after (Books.empty.load i) (before.map (.hit 0))).AllowsAll gcv (.load i :: twoHits after)
    rw [h0, hits_first]
    refine ⟨hi, ?_⟩
    show Books.AllowsAll gcv (Books.load _ i) _
    rw [h1]
    exact allowed_shared gcv i _ after _ fun x hx => by rw [FileCoverage.hits_some]; exact ha x hx
  obtain ⟨st', insts, a1, _, a3, _⟩ := C30_books_partial w hp _ h3
  refine ⟨st', insts, a1, a3 _ _ _ ?_⟩
  rw [h2]
  unfold Books.at
  simp only
  rw [hget, show ∀ (d : FileCoverage) (k l : List Counter), d.hits (k ++ l) = (d.hits k).hits l from fun _ _ _ => List.foldl_append ..]
  rfl

/-! ### Concrete cases -/

namespace NsEx
open Build

/-- `namespace A { … }`. -/
def nsDecl (n : Nat) (items : List Node) : Node :=
  mk (.other .stmt "TsModuleDecl") (at' n) [ident n "A", mk nsKind (at' n) items]

/-- `f();` at a position. -/
def callAt (n : Nat) : Node := expr n (call n (ident n "f") [])

/-- The data of a file with statements at some positions. -/
def data (l : List Nat) : FileCoverage :=
  { FileCoverage.empty "/f.js" false with
    statementMap := l.zipIdx.map fun x => (x.2, ⟨⟨x.1, 0⟩, ⟨x.1 + 1, 0⟩⟩)
    s := l.zipIdx.map fun x => (x.2, 0) }

/-- The coverage function with some data that is put into a namespace, and its call. -/
def inner (c : FileCoverage) : List Node :=
  [mk .covDecl Span.dummy [mk (.other .misc (Serde.save c)) Span.dummy []], mk .covCall Span.dummy []]

/-- The coverage function of the file, and its call. -/
def outer : List Node := [mk .covDecl Span.dummy [], mk .covCall Span.dummy []]

/-- Instrumentation of a module gives these items and this data. -/
def Gives (items : List Node) (items' : List Node) (c : FileCoverage) : Prop :=
  ∃ cov, Visitor.nsInstrument plain 60 "/f.js" none (module items) = .ok (module items', cov) ∧ cov.inner = c

theorem gives {items items' : List Node} {c : FileCoverage}
    (h : yields (Visitor.nsInstrument plain 60 "/f.js" none (module items)) (fun p d => p = module items' ∧ d = c) = true) :
    Gives items items' c := by
  obtain ⟨p, cov, h1, h2⟩ := of_yields h
  obtain ⟨rfl, h3⟩ := of_decide_eq_true h2
  exact ⟨cov, h1, h3⟩

theorem proper (l : List Nat) (m h : String) (hk : (data l).Keyed) : Proper "__coverage__" ⟨"cov_1", "__coverage__", "/f.js", m, h, data l⟩ :=
  ⟨rfl, by simp, by simp, hk⟩

/-- The hashes differ. -/
theorem told {l l' : List Nat} (h : SipHash.sip (SipHash.bytes (Json.print (Serde.coverageTree (data l))) ++ [0xff]) ≠
    SipHash.sip (SipHash.bytes (Json.print (Serde.coverageTree (data l'))) ++ [0xff])) : dataHash (data l) ≠ dataHash (data l') := by
  unfold dataHash
  rw [Serde.hash_save, Serde.hash_save]
  exact fun e => h (toString_inj e)

end NsEx
open NsEx Build

/-- C61 fails for `namespace A { f(); } f();`. The function of the namespace is the first to be called: the counter of
the first statement, at its start, calls it. Then the function of the file is called, and the second statement counted.
The first statement was executed once, and is reported as never executed. -/
theorem C61_namespace_first_fails :
    Gives [nsDecl 1 [callAt 2], callAt 3]
      ([nsDecl 1 (counterStmt (.s 0) :: inner (data [2]) ++ [callAt 2])] ++ outer ++ [counterStmt (.s 1), callAt 3]) (data [2, 3]) ∧
    ∃ st insts, play noWorld [] [.load (emit "cov_1" "__coverage__" "/f.js" (data [2])), .hit 0 (.s 0),
        .load (emit "cov_1" "__coverage__" "/f.js" (data [2, 3])), .hit 1 (.s 1)] freshRealm = .ok (st, insts) ∧
      Reports "__coverage__" st "/f.js" (emit "cov_1" "__coverage__" "/f.js" (data [2, 3])) { data [2, 3] with s := [(0, 0), (1, 1)] } := by
  refine ⟨gives (by decide +kernel), ?_⟩
  have key : ∀ m a b, a ≠ b → ∃ st insts, play noWorld [] [.load ⟨"cov_1", "__coverage__", "/f.js", m, a, data [2]⟩, .hit 0 (.s 0),
        .load ⟨"cov_1", "__coverage__", "/f.js", m, b, data [2, 3]⟩, .hit 1 (.s 1)] freshRealm = .ok (st, insts) ∧
      Reports "__coverage__" st "/f.js" ⟨"cov_1", "__coverage__", "/f.js", m, b, data [2, 3]⟩ { data [2, 3] with s := [(0, 0), (1, 1)] } :=
    fun m a b h => C61_taken_over_partial noWorld freshRealm_pristine
      (proper [2] m a ⟨by decide, by decide, by decide, by decide, by decide, by decide, nofun⟩)
      (proper [2, 3] m b ⟨by decide, by decide, by decide, by decide, by decide, by decide, nofun⟩) rfl h [.s 0] [(true, .s 1)]
      (by dsimp only; decide) (by dsimp only; decide) (by dsimp only; decide)
  exact key magicValue _ _ (told (by decide +kernel))

/-- C61 fails for `f(); namespace A { f(); } f();`. The function of the file is called first, then that of the
namespace; it knows nothing of the third statement. What is reported in the end is its data: the first statement as
never executed, and of the third one there is no trace. -/
theorem C61_namespace_later_fails :
    Gives [callAt 1, nsDecl 2 [callAt 3], callAt 4]
      ([counterStmt (.s 0)] ++ outer ++ [callAt 1, nsDecl 2 (counterStmt (.s 1) :: inner (data [1, 3]) ++ [callAt 3]),
        counterStmt (.s 2), callAt 4]) (data [1, 3, 4]) ∧
    ∃ st insts, play noWorld [] [.load (emit "cov_1" "__coverage__" "/f.js" (data [1, 3, 4])), .hit 0 (.s 0),
        .load (emit "cov_1" "__coverage__" "/f.js" (data [1, 3])), .hit 1 (.s 1), .hit 0 (.s 2)] freshRealm = .ok (st, insts) ∧
      Reports "__coverage__" st "/f.js" (emit "cov_1" "__coverage__" "/f.js" (data [1, 3])) { data [1, 3] with s := [(0, 0), (1, 1)] } := by
  refine ⟨gives (by decide +kernel), ?_⟩
  have key : ∀ m a b, a ≠ b → ∃ st insts, play noWorld [] [.load ⟨"cov_1", "__coverage__", "/f.js", m, a, data [1, 3, 4]⟩, .hit 0 (.s 0),
        .load ⟨"cov_1", "__coverage__", "/f.js", m, b, data [1, 3]⟩, .hit 1 (.s 1), .hit 0 (.s 2)] freshRealm = .ok (st, insts) ∧
      Reports "__coverage__" st "/f.js" ⟨"cov_1", "__coverage__", "/f.js", m, b, data [1, 3]⟩ { data [1, 3] with s := [(0, 0), (1, 1)] } :=
    fun m a b h => C61_taken_over_partial noWorld freshRealm_pristine
      (proper [1, 3, 4] m a ⟨by decide, by decide, by decide, by decide, by decide, by decide, nofun⟩)
      (proper [1, 3] m b ⟨by decide, by decide, by decide, by decide, by decide, by decide, nofun⟩) rfl h [.s 0] [(true, .s 1), (false, .s 2)]
      (by dsimp only; decide) (by dsimp only; decide) (by dsimp only; decide)
  exact key magicValue _ _ (told (by decide +kernel))

/-- A namespace at the end of a file: its function has all the data, and the same hash. -/
example : Gives [callAt 1, nsDecl 2 [callAt 3]]
    ([counterStmt (.s 0)] ++ outer ++ [callAt 1, nsDecl 2 (counterStmt (.s 1) :: inner (data [1, 3]) ++ [callAt 3])]) (data [1, 3]) :=
  gives (by decide +kernel)

/-- `f(); namespace A { f(); } type T = U; "x";`: a type and a string come after it. -/
example : (∀ i ∈ [mk (.other .stmt "TsTypeAlias") (at' 4) [ident 4 "T", ident 5 "U"], expr 6 (mk (.strLit "x") (at' 6) [])],
      Visitor.isDirectiveStmt i = true ∨ i.any Kind.isNs = false ∧ Node.Passive i) ∧
    Gives [callAt 1, nsDecl 2 [callAt 3], mk (.other .stmt "TsTypeAlias") (at' 4) [ident 4 "T", ident 5 "U"], expr 6 (mk (.strLit "x") (at' 6) [])]
    ([counterStmt (.s 0)] ++ outer ++ [callAt 1, nsDecl 2 (counterStmt (.s 1) :: inner (data [1, 3]) ++ [callAt 3]),
      mk (.other .stmt "TsTypeAlias") (at' 4) [ident 4 "T", ident 5 "U"], expr 6 (mk (.strLit "x") (at' 6) [])]) (data [1, 3]) :=
  ⟨by unfold Node.Passive; decide +kernel, gives (by decide +kernel)⟩

/-- `namespace A { f(); } type T = U` as a script. -/
example : yields (Visitor.nsInstrument plain 60 "/f.js" none (script [nsDecl 2 [callAt 3], mk (.other .stmt "TsTypeAlias") (at' 4) [ident 4 "T", ident 5 "U"]]))
    (fun p d => d = data [3] ∧ p = script (outer ++ [nsDecl 2 (counterStmt (.s 0) :: inner (data [3]) ++ [callAt 3]),
      mk (.other .stmt "TsTypeAlias") (at' 4) [ident 4 "T", ident 5 "U"]])) = true := by decide +kernel

/-- `switch (x) {} namespace A { f(); }`: the branch without arms is in neither data. -/
example : Gives [mk .switchStmt (at' 1) [ident 1 "x"], nsDecl 2 [callAt 3]]
    ([counterStmt (.s 0)] ++ outer ++ [mk .switchStmt (at' 1) [ident 1 "x"],
      nsDecl 2 (counterStmt (.s 1) :: inner (data [1, 3]) ++ [callAt 3])]) (data [1, 3]) :=
  gives (by decide +kernel)

/-- Both functions of that file are called and count: the report has all of it. -/
example : ∃ st insts, play noWorld [] [.load (emit "cov_1" "__coverage__" "/f.js" (data [1, 3])), .hit 0 (.s 0),
        .load (emit "cov_1" "__coverage__" "/f.js" (data [1, 3])), .hit 1 (.s 1), .hit 0 (.s 1)] freshRealm = .ok (st, insts) ∧
      Reports "__coverage__" st "/f.js" (emit "cov_1" "__coverage__" "/f.js" (data [1, 3])) { data [1, 3] with s := [(0, 1), (1, 2)] } := by
  have key : ∀ m a, ∃ st insts, play noWorld [] [.load ⟨"cov_1", "__coverage__", "/f.js", m, a, data [1, 3]⟩, .hit 0 (.s 0),
        .load ⟨"cov_1", "__coverage__", "/f.js", m, a, data [1, 3]⟩, .hit 1 (.s 1), .hit 0 (.s 1)] freshRealm = .ok (st, insts) ∧
      Reports "__coverage__" st "/f.js" ⟨"cov_1", "__coverage__", "/f.js", m, a, data [1, 3]⟩ { data [1, 3] with s := [(0, 1), (1, 2)] } :=
    fun m a => C61_shared_partial noWorld freshRealm_pristine
      (proper [1, 3] m a ⟨by decide, by decide, by decide, by decide, by decide, by decide, nofun⟩) [.s 0] [(true, .s 1), (false, .s 1)]
      (by dsimp only; decide) (by dsimp only; decide)
  exact key magicValue _

/-- A program without namespaces, to which `C61_plain` applies. -/
example : (module [callAt 1, block 2 [callAt 3]]).any Kind.isNs = false ∧
    Gives [callAt 1, block 2 [callAt 3]]
      ([counterStmt (.s 0)] ++ outer ++ [callAt 1, block 2 [counterStmt (.s 1), callAt 3]]) (data [1, 3]) :=
  ⟨by decide +kernel, gives (by decide +kernel)⟩

end Verif
