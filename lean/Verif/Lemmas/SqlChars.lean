import Verif.Spec.SqlText
import Verif.Lemmas.SqlRead
/-!
# The text of a trigger as a list of characters

The functions of `Code/SqlText.lean` again, with lists of characters for strings. They serve to evaluate examples: the kernel is slow on long strings.
-/
namespace Denorm

theorem cat2 (a b : String) : (a ++ b).toList = a.toList ++ b.toList := by
  simp only [String.toList_append]
theorem cat3 (a b c : String) : (a ++ b ++ c).toList = a.toList ++ b.toList ++ c.toList := by
  simp only [String.toList_append]
theorem cat4 (a b c d : String) : (a ++ b ++ c ++ d).toList = a.toList ++ b.toList ++ c.toList ++ d.toList := by
  simp only [String.toList_append]
theorem cat5 (a b c d e : String) : (a ++ b ++ c ++ d ++ e).toList = a.toList ++ b.toList ++ c.toList ++ d.toList ++ e.toList := by
  simp only [String.toList_append]
theorem cat6 (a b c d e f : String) : (a ++ b ++ c ++ d ++ e ++ f).toList = a.toList ++ b.toList ++ c.toList ++ d.toList ++ e.toList ++ f.toList := by
  simp only [String.toList_append]
theorem cat7 (a b c d e f g : String) : (a ++ b ++ c ++ d ++ e ++ f ++ g).toList = a.toList ++ b.toList ++ c.toList ++ d.toList ++ e.toList ++ f.toList ++ g.toList := by
  simp only [String.toList_append]
theorem cat8 (a b c d e f g h : String) : (a ++ b ++ c ++ d ++ e ++ f ++ g ++ h).toList = a.toList ++ b.toList ++ c.toList ++ d.toList ++ e.toList ++ f.toList ++ g.toList ++ h.toList := by
  simp only [String.toList_append]
theorem cat9 (a b c d e f g h i : String) : (a ++ b ++ c ++ d ++ e ++ f ++ g ++ h ++ i).toList = a.toList ++ b.toList ++ c.toList ++ d.toList ++ e.toList ++ f.toList ++ g.toList ++ h.toList ++ i.toList := by
  simp only [String.toList_append]
theorem cat10 (a b c d e f g h i j : String) : (a ++ b ++ c ++ d ++ e ++ f ++ g ++ h ++ i ++ j).toList = a.toList ++ b.toList ++ c.toList ++ d.toList ++ e.toList ++ f.toList ++ g.toList ++ h.toList ++ i.toList ++ j.toList := by
  simp only [String.toList_append]
theorem cat11 (a b c d e f g h i j k : String) : (a ++ b ++ c ++ d ++ e ++ f ++ g ++ h ++ i ++ j ++ k).toList = a.toList ++ b.toList ++ c.toList ++ d.toList ++ e.toList ++ f.toList ++ g.toList ++ h.toList ++ i.toList ++ j.toList ++ k.toList := by
  simp only [String.toList_append]
theorem cat12 (a b c d e f g h i j k l : String) : (a ++ b ++ c ++ d ++ e ++ f ++ g ++ h ++ i ++ j ++ k ++ l).toList = a.toList ++ b.toList ++ c.toList ++ d.toList ++ e.toList ++ f.toList ++ g.toList ++ h.toList ++ i.toList ++ j.toList ++ k.toList ++ l.toList := by
  simp only [String.toList_append]
theorem cat13 (a b c d e f g h i j k l m : String) : (a ++ b ++ c ++ d ++ e ++ f ++ g ++ h ++ i ++ j ++ k ++ l ++ m).toList = a.toList ++ b.toList ++ c.toList ++ d.toList ++ e.toList ++ f.toList ++ g.toList ++ h.toList ++ i.toList ++ j.toList ++ k.toList ++ l.toList ++ m.toList := by
  simp only [String.toList_append]

def joinC (sep : List Char) : List (List Char) → List Char
  | [] => []
  | [p] => p
  | p :: q :: ps => p ++ sep ++ joinC sep (q :: ps)

theorem joinC_eq (sep : String) : ∀ l : List String, (joinText sep l).toList = joinC sep.toList (l.map String.toList)
  | [] => rfl
  | [p] => rfl
  | p :: q :: ps => by
    simp only [joinText, String.toList_append, List.map_cons, joinC]
    rw [joinC_eq sep (q :: ps)]
    simp only [List.map_cons]

def qnC (b : Backend) (n : List Char) : List Char :=
  match b with
  | .mysql => ['`'] ++ n ++ ['`']
  | _ => ['"'] ++ n ++ ['"']

theorem qnC_eq (b : Backend) (n : String) : (qn b n).toList = qnC b n.toList := by
  cases b <;> simp [qn, qnC]

def sideC : Side → List Char
  | .new => ['N', 'E', 'W']
  | .old => ['O', 'L', 'D']

theorem sideC_eq (s : Side) : s.str.toList = sideC s := by cases s <;> decide

def refC (b : Backend) (s : Side) (c : List Char) (quoted : Bool) : List Char := sideC s ++ ['.'] ++ (if quoted then qnC b c else c)

theorem refC_eq (b : Backend) (s : Side) (c : Col) (q : Bool) : (refText b s c q).toList = refC b s c.toList q := by
  unfold refText refC
  rw [String.toList_append, String.toList_append, sideC_eq]
  cases q
  · simp
  · simp [qnC_eq]

def nestedC (table : List Char) (columns : List (List Char)) (k v : List Char) : List Char :=
  "SELECT DISTINCT ".toList ++ joinC ", ".toList columns ++ " FROM ".toList ++ table ++ " WHERE ".toList ++ k ++ " = ".toList ++ v

theorem nestedC_eq (table : TableName) (columns : List String) (k : Col) (v : String) :
    (nestedSelectText table columns k v).toList = nestedC table.toList (columns.map String.toList) k.toList v.toList := by
  unfold nestedSelectText nestedC
  rw [cat8, joinC_eq]

inductive SourceC where
  | values (vs : List (List Char))
  | select (sql : List Char)

def InsertSource.chars : InsertSource → SourceC
  | .values vs => .values (vs.map String.toList)
  | .select sql => .select sql.toList

def sourceC (b : Backend) : SourceC → List Char
  | .select sql => match b with
    | .sqlite => sql
    | _ => "(".toList ++ sql ++ ")".toList
  | .values vs => match b with
    | .sqlite => "VALUES(".toList ++ joinC ", ".toList vs ++ ")".toList
    | _ => "VALUES (".toList ++ joinC ", ".toList vs ++ ")".toList

def insertC (b : Backend) (table : List Char) (columns : List (List Char)) (src : SourceC) : List Char :=
  let cols := "(".toList ++ joinC ", ".toList columns ++ ")".toList
  match b with
  | .sqlite => "INSERT OR REPLACE INTO ".toList ++ table ++ " ".toList ++ cols ++ " ".toList ++ sourceC .sqlite src
  | .postgresql =>
    "BEGIN\n    INSERT INTO ".toList ++ table ++ " ".toList ++ cols ++ " ".toList ++ sourceC .postgresql src ++
      ";\nEXCEPTION WHEN unique_violation THEN\n    -- do nothing\nEND".toList
  | .mysql => "INSERT IGNORE INTO ".toList ++ table ++ " ".toList ++ cols ++ " ".toList ++ sourceC .mysql src

theorem insertC_eq (b : Backend) (table : TableName) (columns : List Col) (src : InsertSource) :
    (insertText b table columns src).toList = insertC b table.toList (columns.map String.toList) src.chars := by
  cases b <;> cases src <;> unfold insertText insertC InsertSource.chars sourceC <;> simp only
  · rw [cat6, cat3, cat3, joinC_eq, joinC_eq]
  · rw [cat6, cat3, joinC_eq]
  · rw [cat6, cat3, cat3, joinC_eq, joinC_eq]
  · rw [cat6, cat3, cat3, joinC_eq]
  · rw [cat7, cat3, cat3, joinC_eq, joinC_eq]
  · rw [cat7, cat3, cat3, joinC_eq]

def updateC (table column value wher : List Char) : List Char :=
  "UPDATE ".toList ++ table ++ " SET ".toList ++ column ++ " = ".toList ++ value ++ " WHERE ".toList ++ wher

theorem updateC_eq (table : TableName) (column : Col) (value wher : String) :
    (updateText table column value wher).toList = updateC table.toList column.toList value.toList wher.toList := by
  unfold updateText updateC
  rw [cat8]

def SetExpr.chars (b : Backend) (field : List Char) : SetExpr → List Char
  | .random => (randomText b).toList
  | .plus .one => qnC b field ++ " + 1".toList
  | .minus .one => qnC b field ++ " - 1".toList
  | .plus (.ref s c) => qnC b field ++ " + ".toList ++ refC b s c.toList true
  | .minus (.ref s c) => qnC b field ++ " - ".toList ++ refC b s c.toList true
  | .plus (.scalar ..) => []
  | .minus (.scalar ..) => []

theorem SetExpr.chars_eq (b : Backend) (field : Col) (e : SetExpr) : (e.text b field).toList = e.chars b field.toList := by
  cases e with
  | random => rfl
  | plus t =>
    cases t with
    | one => unfold SetExpr.text SetExpr.chars; simp only; rw [cat2, qnC_eq]
    | ref s c => unfold SetExpr.text SetExpr.chars; simp only; rw [cat3, qnC_eq, refC_eq]
    | scalar => rfl
  | minus t =>
    cases t with
    | one => unfold SetExpr.text SetExpr.chars; simp only; rw [cat2, qnC_eq]
    | ref s c => unfold SetExpr.text SetExpr.chars; simp only; rw [cat3, qnC_eq, refC_eq]
    | scalar => rfl

def Key.chars (b : Backend) : Key → List Char
  | .eq k s c => qnC b k.toList ++ " = ".toList ++ refC b s c.toList true
  | .inSelect k sel t wk s c => k.toList ++ " IN (".toList ++ nestedC t.toList [sel.toList] wk.toList (refC b s c.toList true) ++ ")".toList

theorem Key.chars_eq (b : Backend) (k : Key) : (k.text b).toList = k.chars b := by
  cases k with
  | eq k s c => unfold Key.text Key.chars; simp only; rw [cat3, qnC_eq, refC_eq]
  | inSelect k sel t wk s c => unfold Key.text Key.chars; simp only; rw [cat4, nestedC_eq, refC_eq]; rfl

def Lookup.chars (lit : Val → String) (v : Val) : Lookup → List Char
  | .oneOf vs => "IN (".toList ++ joinC ", ".toList ((v :: vs).map fun x => (lit x).toList) ++ ")".toList
  | .between hi => "BETWEEN ".toList ++ (lit v).toList ++ " AND ".toList ++ (lit hi).toList
  | l => l.sym.toList ++ " ".toList ++ (lit v).toList

theorem Lookup.chars_eq (lit : Val → String) (v : Val) (l : Lookup) : (l.text lit v).toList = l.chars lit v := by
  cases l with
  | oneOf vs => unfold Lookup.text Lookup.chars; simp only; rw [cat3, joinC_eq, List.map_map]; rfl
  | between hi => unfold Lookup.text Lookup.chars; simp only; rw [cat4]
  | _ => unfold Lookup.text Lookup.chars; simp only; rw [cat3]

def Filter.chars (b : Backend) (lit : Val → String) (s : Side) (negated : Bool) : Filter → List (List Char)
  | .tt => []
  | .cmp c l v => [refC b s c.toList true ++ " ".toList ++ l.chars lit v]
  | .isNull c => [refC b s c.toList true ++ " IS NULL".toList]
  | .and f g => f.chars b lit s negated ++ g.chars b lit s negated
  | .not f =>
    match negated, f with
    | true, .isNull c => [refC b s c.toList true ++ " IS NOT NULL".toList]
    | _, f => ["NOT (".toList ++ joinC " AND ".toList (f.chars b lit s true) ++ ")".toList]

theorem Filter.chars_eq (b : Backend) (lit : Val → String) (s : Side) : ∀ (f : Filter) (neg : Bool),
    (f.parts b lit s neg).map String.toList = f.chars b lit s neg
  | .tt, _ => by simp only [Filter.parts, Filter.chars, List.map_nil]
  | .cmp c l v, _ => by simp only [Filter.parts, Filter.chars, List.map_cons, List.map_nil, String.toList_append, refC_eq, Lookup.chars_eq]
  | .isNull c, _ => by simp only [Filter.parts, Filter.chars, List.map_cons, List.map_nil, String.toList_append, refC_eq]
  | .and f g, neg => by simp only [Filter.parts, Filter.chars, List.map_append, Filter.chars_eq b lit s f neg, Filter.chars_eq b lit s g neg]
  | .not f, neg => by
    have ih := Filter.chars_eq b lit s f true
    cases neg
    · simp only [Filter.parts, Filter.chars, List.map_cons, List.map_nil, String.toList_append, joinC_eq, ih]
    · cases f <;> simp only [Filter.parts, Filter.chars, List.map_cons, List.map_nil, String.toList_append, joinC_eq, refC_eq, Lookup.chars_eq] at ih ⊢ <;>
        simp only [Filter.parts, Filter.chars, List.map_cons, List.map_nil, String.toList_append, joinC_eq, refC_eq, Lookup.chars_eq, ih]

def groupC : List (List Char) → List Char
  | [p] => p
  | ps => "(".toList ++ joinC " AND ".toList ps ++ ")".toList

def Guard.chars (b : Backend) (lit : Val → String) : Guard → List Char
  | .filter s f => groupC (f.chars b lit s false)
  | .someRow .. => []

theorem Guard.chars_eq (b : Backend) (lit : Val → String) (g : Guard) : (g.text b lit).toList = g.chars b lit := by
  cases g with
  | someRow => rfl
  | filter s f =>
    simp only [Guard.text, Filter.text, Guard.chars, ← Filter.chars_eq]
    rcases f.parts b lit s false with _ | ⟨p, _ | ⟨q, ps⟩⟩
    · simp only [groupC, List.map_nil, String.toList_append, joinC_eq]
    · simp only [groupC, List.map_cons, List.map_nil]
    · simp only [groupC, List.map_cons, String.toList_append, joinC_eq]

def Action.chars (b : Backend) (lit : Val → String) : Action → List Char
  | .markValues ct s c quoted =>
    insertC b dirtyTable.toList (dirtyColumns.map String.toList) (.values [(toString ct).toList, refC b s c.toList quoted])
  | .markSelect ct sel t k s c quoted =>
    insertC b dirtyTable.toList (dirtyColumns.map String.toList)
      (.select (nestedC t.toList [(toString ct).toList, if quoted then qnC b sel.toList else sel.toList] k.toList (refC b s c.toList true)))
  | .update u => updateC u.table.toList u.col.toList (u.expr.chars b u.col.toList) (joinC " AND ".toList (u.key.chars b :: u.guards.map (Guard.chars b lit)))

theorem Action.chars_eq (b : Backend) (lit : Val → String) (a : Action) : (a.text b lit).toList = a.chars b lit := by
  cases a with
  | markValues ct s c q => simp only [Action.text, Action.chars, insertC_eq, InsertSource.chars, List.map_cons, List.map_nil, refC_eq]
  | markSelect ct sel t k s c q =>
    have : (if q then qn b sel else sel).toList = if q then qnC b sel.toList else sel.toList := by
      cases q
      · rfl
      · simp [qnC_eq]
    simp only [Action.text, Action.chars, insertC_eq, InsertSource.chars, nestedC_eq, List.map_cons, List.map_nil, refC_eq, this]
  | update u =>
    have : u.guards.map (fun g => (g.text b lit).toList) = u.guards.map (Guard.chars b lit) := List.map_congr_left fun g _ => Guard.chars_eq b lit g
    simp only [Action.text, Action.chars, updateC_eq, joinC_eq, List.map_cons, List.map_map, Function.comp_def, Key.chars_eq, SetExpr.chars_eq, this]

def endC (l : List Char) : List Char := if l.getLast? = some ';' then l else l ++ [';']

def actionsC (b : Backend) (lit : Val → String) (sep : List Char) (as : List Action) : List Char :=
  joinC sep ((dedup (as.map fun a => (endC (a.chars b lit), a.params))).map fun p => p.1.flatMap fun c => if c = '\n' then sep else [c])

theorem actionsC_eq (b : Backend) (lit : Val → String) (sep : String) (as : List Action) :
    (actionsText b lit sep as).toList = actionsC b lit sep.toList as := by
  have he : ∀ a : Action, endC (a.chars b lit) = (endStmt (a.text b lit)).toList := by
    intro a
    rw [← Action.chars_eq]
    unfold endC endStmt
    split <;> simp
  have hd : dedup (as.map fun a => (endC (a.chars b lit), a.params)) =
      (dedup (as.map fun a => (endStmt (a.text b lit), a.params))).map fun p => (p.1.toList, p.2) := by
    rw [← dedup_map (fun p : String × List Val => (p.1.toList, p.2)) _ fun x _ y _ e => ?_, List.map_map]
    · simp only [Function.comp_def, he]
    · simp only [Prod.mk.injEq] at e
      exact Prod.ext (String.toList_injective e.1) e.2
  unfold actionsText actionsC
  rw [joinC_eq, hd, List.map_map, List.map_map]
  simp only [Function.comp_def, reindent, String.toList_ofList]

def changedC (b : Backend) (f : List Char) : List Char :=
  match b with
  | .sqlite => "(OLD.".toList ++ qnC b f ++ " IS NOT NEW.".toList ++ qnC b f ++ ")".toList
  | .postgresql => "(OLD.".toList ++ qnC b f ++ " IS DISTINCT FROM NEW.".toList ++ qnC b f ++ ")".toList
  | .mysql => "(NOT(OLD.".toList ++ qnC b f ++ " <=> NEW.".toList ++ qnC b f ++ "))".toList

theorem changedC_eq (b : Backend) (f : Col) : (changedCondText b f).toList = changedC b f.toList := by
  cases b <;> unfold changedCondText changedC <;> simp only <;> rw [cat5, qnC_eq]

def sqliteFrameC (name event table wher actions : List Char) : List Char :=
  "\nCREATE TRIGGER ".toList ++ name ++ "\n    AFTER ".toList ++ event ++ " ON ".toList ++ table ++ "\n    FOR EACH ROW ".toList ++ wher ++
    " BEGIN\n        ".toList ++ actions ++ "\n    END;\n".toList

theorem sqliteFrameC_eq (name event table wher actions : String) : (sqliteFrame name event table wher actions).toList =
    sqliteFrameC name.toList event.toList table.toList wher.toList actions.toList := by
  unfold sqliteFrame sqliteFrameC
  rw [cat11]

def postgresFrameC (name event table actions : List Char) : List Char :=
  "\nCREATE OR REPLACE FUNCTION func_".toList ++ name ++ "()\n    RETURNS TRIGGER AS $$\n    BEGIN\n        ".toList ++ actions ++
    "\n        RETURN NULL;\n    END;\n$$ LANGUAGE plpgsql;\nCREATE TRIGGER ".toList ++ name ++ "\n    AFTER ".toList ++ event ++ " ON ".toList ++ table ++
    "\n    FOR EACH ROW EXECUTE PROCEDURE func_".toList ++ name ++ "();\n".toList

theorem postgresFrameC_eq (name event table actions : String) : (postgresFrame name event table actions).toList =
    postgresFrameC name.toList event.toList table.toList actions.toList := by
  unfold postgresFrame postgresFrameC
  rw [cat13]

def mysqlFrameC (name event table actions : List Char) : List Char :=
  "\nCREATE TRIGGER ".toList ++ name ++ "\n    AFTER ".toList ++ event ++ " ON ".toList ++ table ++ "\n    FOR EACH ROW BEGIN\n        ".toList ++ actions ++
    "\n    END;\n".toList

theorem mysqlFrameC_eq (name event table actions : String) : (mysqlFrame name event table actions).toList =
    mysqlFrameC name.toList event.toList table.toList actions.toList := by
  unfold mysqlFrame mysqlFrameC
  rw [cat9]

/-- The text of a trigger without a condition, i.e. for INSERT or DELETE and no generic relation. -/
def plainC (b : Backend) (lit : Val → String) (name : String) (t : PyTrigger) : List Char :=
  let acts := actionsC b lit "\n        ".toList t.actions
  match b with
  | .sqlite => sqliteFrameC name.toList t.event.upper.toList t.table.toList [] acts
  | .postgresql => postgresFrameC name.toList t.event.upper.toList t.table.toList acts
  | .mysql => mysqlFrameC name.toList t.event.upper.toList t.table.toList acts

theorem plainC_eq (b : Backend) (lit : Val → String) (name : String) {t : PyTrigger} (h1 : t.event ≠ .update) (h2 : t.contentTypeField = none) :
    (t.text b lit name).toList = plainC b lit name t := by
  cases b
  · have : sqliteWhen t = "" := by simp [sqliteWhen, sqliteConds, h1, h2]
    simp only [PyTrigger.text, sqliteTriggerText, this, sqliteFrameC_eq, plainC, actionsC_eq]
    rfl
  · have : mysqlBody lit t = actionsText .mysql lit "\n        " t.actions := by simp [mysqlBody, mysqlConds, h1]
    simp only [PyTrigger.text, mysqlTriggerText, this, mysqlFrameC_eq, plainC, actionsC_eq]
  · have : postgresBody lit t = actionsText .postgresql lit "\n        " t.actions := by simp [postgresBody, postgresConds, h1, h2]
    simp only [PyTrigger.text, postgresTriggerText, this, postgresFrameC_eq, plainC, actionsC_eq]

/-- The text of an UPDATE trigger of PostgreSQL without a generic relation. -/
def updateTriggerC (lit : Val → String) (name : String) (t : PyTrigger) : List Char :=
  postgresFrameC name.toList t.event.upper.toList t.table.toList
    ("IF ".toList ++ ("(".toList ++ joinC " OR ".toList (t.fields.map fun f => changedC .postgresql f.toList) ++ ")".toList) ++ " THEN\n            ".toList ++
      actionsC .postgresql lit "\n            ".toList t.actions ++ "\n        END IF;".toList)

theorem updateTriggerC_eq (lit : Val → String) (name : String) {t : PyTrigger} (h1 : t.event = .update) (h2 : t.contentTypeField = none) :
    (t.text .postgresql lit name).toList = updateTriggerC lit name t := by
  have : postgresBody lit t = "IF " ++ ("(" ++ joinText " OR " (t.fields.map (changedCondText .postgresql)) ++ ")") ++ " THEN\n            " ++
      actionsText .postgresql lit "\n            " t.actions ++ "\n        END IF;" := by simp [postgresBody, postgresConds, h1, h2, joinText]
  simp only [PyTrigger.text, postgresTriggerText, this, postgresFrameC_eq, updateTriggerC, actionsC_eq]
  rw [cat5, actionsC_eq, cat3, joinC_eq, List.map_map]
  simp only [Function.comp_def, changedC_eq]

def lexC (b : Backend) (l : List Char) : List LTok := (lexRun b .idle l).2 ++ lexEnd (lexRun b .idle l).1

theorem lex_chars (b : Backend) (s : String) : lex b s = lexC b s.toList := rfl

end Denorm
