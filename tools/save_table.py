"""Generate lean/Verif/Serialization/Table.lean from the text of the classes in /repo.

For every class that derives from Serializable: what its constructor assigns, what it registers with _add_save_attr, what
its _post_load assigns, and what its other methods read. Run: python3 tools/save_table.py > lean/Verif/Serialization/Table.lean
"""
import ast, os, sys

ROOT = '/repo/mushroom_rl'
classes = {}
DUP = ("MaxAndSkip", "LazyFrames", "MujocoGlfwViewer")
for dp, _, fs in sorted(os.walk(ROOT)):
    for f in sorted(fs):
        if f.endswith('.py'):
            path = os.path.join(dp, f)
            tree = ast.parse(open(path).read())
            for n in ast.walk(tree):
                if isinstance(n, ast.ClassDef):
                    meths = {}
                    for m in n.body:
                        if isinstance(m, ast.FunctionDef):
                            static = any(isinstance(d, ast.Name) and d.id == 'staticmethod' for d in m.decorator_list)
                            clsm = any(isinstance(d, ast.Name) and d.id == 'classmethod' for d in m.decorator_list)
                            setter = any(isinstance(d, ast.Attribute) and d.attr == 'setter' for d in m.decorator_list)
                            name = m.name + ('.setter' if setter else '')
                            meths[name] = (m, static or clsm)
                    bases = [b.id if isinstance(b, ast.Name) else getattr(b, 'attr', '') for b in n.bases]
                    assert n.name not in classes or n.name in DUP, n.name
                    classes[n.name] = dict(bases=bases, meths=meths, file=os.path.relpath(path, '/repo'),
                                           l0=n.lineno, l1=n.end_lineno)


def mro(c):
    out = []
    for k in ([c] if c in classes else []):
        out.append(k)
        for b in classes[k]['bases']:
            for x in mro(b):
                if x in out:
                    out.remove(x)
                out.append(x)
    return out


def selfattr(x):
    return isinstance(x, ast.Attribute) and isinstance(x.value, ast.Name) and x.value.id == 'self'


def find(order, name, after=None):
    ks = order if after is None else order[order.index(after) + 1:]
    for k in ks:
        if name in classes[k]['meths']:
            return k, classes[k]['meths'][name]
    return None


def reach(order, name, seen=None, start=None):
    """Methods reached from `name` through self.method(...) and super().method(...)."""
    seen = {} if seen is None else seen
    r = find(order, name, start)
    if r is None:
        return seen
    k, (m, static) = r
    if (k, name) in seen:
        return seen
    seen[(k, name)] = m
    for x in ast.walk(m):
        if isinstance(x, ast.Call) and isinstance(x.func, ast.Attribute):
            f = x.func
            if selfattr(f):
                reach(order, f.attr, seen)
            elif isinstance(f.value, ast.Call) and isinstance(f.value.func, ast.Name) and f.value.func.id == 'super':
                reach(order, f.attr, seen, k)
            elif isinstance(f.value, ast.Name) and f.value.id in order and f.attr == '__init__':
                i = order.index(f.value.id)
                r2 = find(order[i:], '__init__')
                if r2:
                    reach(order, '__init__', seen, order[i - 1])
    return seen


def stores(m):
    return [x.attr for x in ast.walk(m) if selfattr(x) and isinstance(x.ctx, ast.Store)]


def loads(m):
    return [x.attr for x in ast.walk(m) if selfattr(x) and not isinstance(x.ctx, ast.Store)]


def registered(ms):
    reg = {}
    for m in ms:
        for x in ast.walk(m):
            if isinstance(x, ast.Call) and isinstance(x.func, ast.Attribute) and x.func.attr == '_add_save_attr':
                for k in x.keywords:
                    reg[k.arg if k.arg else '**'] = k.value.value if isinstance(k.value, ast.Constant) else '?'
    return reg


def uniq(l):
    return list(dict.fromkeys(l))


def analyse():
    rows = []
    for c in classes:
        order = mro(c)
        if 'Serializable' not in order or c == 'Serializable':
            continue
        init = reach(order, '__init__')
        init = {k: m for k, m in init.items()}
        set_ = uniq([a for m in init.values() for a in stores(m)])
        reg = registered(init.values())
        post = reach(order, '_post_load')
        pst = uniq([a for m in post.values() for a in stores(m)])
        uses = {}
        # methods that only run during construction are not uses
        names = uniq([n for k in order if k != 'Serializable' for n in classes[k]['meths']])
        roots = [n for n in names if n not in ('__init__', '_post_load', '__new__')]
        for n in roots:
            k, (m, static) = find(order, n)
            if static:
                continue
            rd = [a for a in uniq(loads(m)) if a in set_]
            if rd:
                uses[n] = (k, m.lineno, rd)
            # overridden methods reached by super
            for (k2, n2), m2 in reach(order, n).items():
                if n2 == n and k2 != k:
                    rd2 = [a for a in uniq(loads(m2)) if a in set_]
                    if rd2:
                        uses[n + '@' + k2] = (k2, m2.lineno, rd2)
        # private helpers called only from the constructor
        called = set()
        for n in roots:
            k, (m, static) = find(order, n)
            called |= set(loads(m))
        for n in list(uses):
            base = n.split('@')[0]
            inits = {x for (_, x) in init}
            if base.startswith('_') and not base.startswith('__') and base in inits and base not in called:
                del uses[n]
        rows.append(dict(name=c, set=set_, reg=reg, post=pst, uses=uses, **{k: classes[c][k] for k in ('file', 'l0', 'l1')}))
    return rows


def low(c):
    return c[0].lower() + c[1:] if not c.isupper() else c.lower()


def meth(m):
    if m == '?':   # Serializable._get_serialization_method: 'mushroom' or 'pickle', chosen by the class of the value
        return 'none', 'false'
    b = m.endswith('!')
    return '(some .' + m.rstrip('!') + ')', str(b).lower()


def wrap(items, ind):
    lines, cur = [], ''
    for i, x in enumerate(items):
        x = x + (', ' if i + 1 < len(items) else '')
        if len(cur) + len(x) > 110 - ind:
            lines.append(cur.rstrip())
            cur = ''
        cur += x
    lines.append(cur)
    return ('\n' + ' ' * ind).join(lines)


if __name__ == '__main__':
    rows = analyse()
    attrs = sorted({a for r in rows for a in r['set'] + list(r['reg']) + r['post']} - {'_save_attributes'})
    print("""/-
Generated by tools/save_table.py from the text of mushroom_rl: one entry for every class that derives from
`Serializable` (mushroom_rl/core/serialization.py). Do not edit.

`sets` are the attributes assigned by the constructor, with the methods it calls and the constructors of the base
classes; `registered` what it passes to `_add_save_attr`, with the method and the '!' flag (the method is `none` if it is
chosen at run time by `_get_serialization_method`, core/serialization.py L266-271); `post` what `_post_load` assigns, with
the methods it calls; `reads` the attributes in `sets` that some other method of the class reads through `self`.
-/
import Verif.Serialization.Model

namespace Verif.Serialization.Table

/-- The names of all the attributes below. -/
inductive Attr where""")
    print('  | ' + wrap(['«' + a + '»' for a in attrs], 4).replace(', ', ' | ').replace(',\n', '\n').replace('\n    ', '\n  | '))
    print("""deriving DecidableEq

/-- The Python name. -/
def Attr.name : Attr → String""")
    for a in attrs:
        print('  | .«%s» => "%s"' % (a, a))
    print("""
structure Cls where
  name : String
  registered : List (Attr × Option Meth × Bool)
  post : List Attr
  sets : List Attr
  reads : List Attr
""")
    for r in rows:
        reads = uniq([a for n, (k, l, rd) in r['uses'].items() for a in rd if a != '_save_attributes'])
        sets = [a for a in r['set'] if a != '_save_attributes']
        print('/-- %s L%d-%d. -/' % (r['file'], r['l0'], r['l1']))
        print('def %s : Cls where' % low(r['name']))
        print('  name := "%s"' % r['name'])
        print('  registered := [' + wrap(['(.«%s», %s, %s)' % ((a,) + meth(m)) for a, m in r['reg'].items()], 4) + ']')
        for f, l in (('post', r['post']), ('sets', sets), ('reads', reads)):
            print('  %s := [' % f + wrap(['.«%s»' % a for a in l], 4) + ']')
        print()
    print('/-- All the classes. -/')
    print('def allClasses : List Cls := [\n  ' + wrap([low(r['name']) for r in rows], 2) + ']')
    print('\nend Verif.Serialization.Table')
