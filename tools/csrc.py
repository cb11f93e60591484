#!/usr/bin/env python3
"""Parse /repo/mulib/*.c (with the headers they include) and print every function body as a Lean
term of the types in Verif/C/Src.lean.

usage: csrc.py [SRC_DIR] [OUT_DIR]      (default /repo/mulib  /verif/lean/Verif/Src)

The tool is a small preprocessor (object-like and function-like macros, conditionals, local
includes), a recursive-descent parser for the part of C99 that mulib uses, and a type checker that
resolves names, struct offsets and implicit conversions.  It rejects anything it does not know.
"""
import os, re, sys

SRC = sys.argv[1] if len(sys.argv) > 1 else '/repo/mulib'
OUT = sys.argv[2] if len(sys.argv) > 2 else '/verif/lean/Verif/Src'
FILES = ['mu_queue', 'mu_spsc', 'mu_bbuf', 'mu_bvec', 'mu_bisync', 'mu_array', 'mu_task',
         'mu_mqueue', 'mu_sched', 'mu_log', 'mu_jems']

# ---------------------------------------------------------------- tokens
TOK = re.compile(r'''
  (?P<ws>[ \t\r\f\v]+) | (?P<nl>\n)
 |(?P<id>[A-Za-z_]\w*)
 |(?P<num>0[xX][0-9a-fA-F]+|\d+)
 |(?P<str>"(?:\\.|[^"\\])*")
 |(?P<chr>'(?:\\.|[^'\\])')
 |(?P<op>\.\.\.|<<=|>>=|->|\+\+|--|<<|>>|<=|>=|==|!=|&&|\|\||\+=|-=|\*=|/=|%=|&=|\|=|\^=|\#\#|[-+*/%&|^~!<>=?:;,.(){}\[\]\#])
''', re.X)


class Tok:
    __slots__ = ('k', 'v', 'f', 'l')

    def __init__(s, k, v, f, l): s.k, s.v, s.f, s.l = k, v, f, l
    def __repr__(s): return '%s:%d:%s' % (s.f, s.l, s.v)


def lex_line(text, f, l):
    out, i = [], 0
    while i < len(text):
        m = TOK.match(text, i)
        if not m: raise SystemExit('%s:%d: cannot lex %r' % (f, l, text[i:i + 20]))
        if m.lastgroup not in ('ws', 'nl'): out.append(Tok(m.lastgroup, m.group(), f, l))
        i = m.end()
    return out


def strip_comments(s):
    def rep(m):
        t = m.group()
        if t[0] in '"\'': return t
        return '\n' * t.count('\n') if t.startswith('/*') else ''
    return re.sub(r'"(?:\\.|[^"\\\n])*"|\'(?:\\.|[^\'\\\n])\'|/\*.*?\*/|//[^\n]*', rep, s, flags=re.S)


# ---------------------------------------------------------------- preprocessor
class Macro:
    def __init__(s, params, body): s.params, s.body = params, body


BUILTIN = {'NULL': '__null', 'true': '1', 'false': '0', 'INT_MAX': '__int_max',
           'SIZE_MAX': '__size_max', 'PRId64': '"lld"'}


class Pre:
    def __init__(s):
        s.macros = {k: Macro(None, lex_line(v, '<builtin>', 0)) for k, v in BUILTIN.items()}
        s.seen = set()
        s.out = []

    def file(s, name):
        if name in s.seen: return
        text = strip_comments(open(os.path.join(SRC, name)).read())
        lines, stack, i = text.split('\n'), [], 0
        pend = []
        while i < len(lines):
            ln, start = lines[i], i + 1
            while ln.rstrip().endswith('\\') and i + 1 < len(lines):
                i += 1
                ln = ln.rstrip()[:-1] + ' ' + lines[i]
            i += 1
            m = re.match(r'\s*#\s*(\w+)\s*(.*)', ln)
            if not m:
                if all(stack): pend += lex_line(ln, name, start)
                continue
            s.flush(pend); pend = []
            d, arg = m.group(1), m.group(2).strip()
            if d == 'ifdef': stack.append(arg.split()[0] in s.macros)
            elif d == 'ifndef': stack.append(arg.split()[0] not in s.macros)
            elif d == 'else': stack[-1] = not stack[-1]
            elif d == 'endif': stack.pop()
            elif not all(stack): pass
            elif d == 'include':
                q = re.match(r'"([^"]+)"', arg)
                if q: s.file(q.group(1)); s.seen.add(q.group(1))
            elif d == 'define': s.define(arg, name, start)
            elif d in ('error', 'if', 'elif', 'undef'): raise SystemExit('%s:%d: #%s' % (name, start, d))
        s.flush(pend)

    def define(s, arg, f, l):
        m = re.match(r'(\w+)(\([^)]*\))?', arg)
        body = lex_line(arg[m.end():], f, l)
        ps = None
        if m.group(2) is not None and arg[m.end(1)] == '(':
            ps = [p.strip() for p in m.group(2)[1:-1].split(',') if p.strip()]
        s.macros[m.group(1)] = Macro(ps, body)

    def flush(s, toks):
        s.out += s.expand(toks, frozenset())

    def expand(s, toks, hide):
        out, i = [], 0
        while i < len(toks):
            t = toks[i]
            m = s.macros.get(t.v) if t.k == 'id' and t.v not in hide else None
            if m is None:
                out.append(t); i += 1; continue
            if m.params is None:
                out += s.expand([Tok(b.k, b.v, t.f, t.l) for b in m.body], hide | {t.v}); i += 1
                continue
            if i + 1 >= len(toks) or toks[i + 1].v != '(':
                out.append(t); i += 1; continue
            args, cur, depth, j = [], [], 1, i + 2
            while True:
                a = toks[j]
                if a.v == '(': depth += 1
                if a.v == ')':
                    depth -= 1
                    if depth == 0: break
                if a.v == ',' and depth == 1: args.append(cur); cur = []
                else: cur.append(a)
                j += 1
            args.append(cur)
            if len(args) != len(m.params): raise SystemExit('%r: macro arity' % t)
            sub = dict(zip(m.params, args))
            body = []
            for b in m.body:
                if b.k == 'id' and b.v in sub:
                    body += [Tok(x.k, x.v, t.f, t.l) for x in sub[b.v]]
                else: body.append(Tok(b.k, b.v, t.f, t.l))
            out += s.expand(body, hide | {t.v})
            i = j + 1
        return out


# ---------------------------------------------------------------- types
# ('int', ity) ('ptr', T) ('struct', tag) ('arr', T, n) ('fn', ret, [params], variadic) 'void'
# 'double' 'va_list'
INTS = {'bool': 'bool', 'char': 'char', 'int8_t': 'i8', 'uint8_t': 'u8', 'int16_t': 'i16',
        'uint16_t': 'u16', 'int32_t': 'i32', 'uint32_t': 'u32', 'int64_t': 'i64',
        'uint64_t': 'u64', 'int': 'int', 'size_t': 'size', 'uintptr_t': 'uptr'}


class Struct:
    def __init__(s): s.fields = {}; s.order = []; s.size = 0


class G:                                  # everything parsed so far, over all files
    typedefs = {k: ('int', v) for k, v in INTS.items()}
    structs = {}
    enums = {}
    fns = {}                              # key -> dict(ret, params, variadic, file)
    globs = {}                            # key -> dict(type, init, file, line)
    bodies = []                           # (key, info)
    anon = 0


G.typedefs['va_list'] = 'va_list'


def sizeof(T):
    if T == 'void': raise SystemExit('sizeof void')
    if isinstance(T, str): return 1
    if T[0] in ('int', 'ptr'): return 1
    if T[0] == 'struct': return G.structs[T[1]].size
    if T[0] == 'arr': return T[2] * sizeof(T[1])
    raise SystemExit('sizeof %r' % (T,))


def isint(T): return isinstance(T, tuple) and T[0] == 'int'
def isptr(T): return isinstance(T, tuple) and T[0] == 'ptr'
def isfnptr(T): return isptr(T) and isinstance(T[1], tuple) and T[1][0] == 'fn'


BASEFN = {'memmove': ('ptr', 'void'), 'memset': ('ptr', 'void'), 'strlen': ('int', 'size'),
          'snprintf': ('int', 'int'), 'sprintf': ('int', 'int')}
LIBPARAMS = {'memmove': [('ptr', 'void'), ('ptr', 'void'), ('int', 'size')],
             'memset': [('ptr', 'void'), ('int', 'int'), ('int', 'size')],
             'strlen': [('ptr', ('int', 'char'))],
             'snprintf': [('ptr', ('int', 'char')), ('int', 'size'), ('ptr', ('int', 'char'))],
             'sprintf': [('ptr', ('int', 'char')), ('ptr', ('int', 'char'))]}


# ---------------------------------------------------------------- parser
class P:
    def __init__(s, toks, fname):
        s.t, s.i, s.file = toks, 0, fname
        s.scopes = []
        s.static = {}                     # static names of this file -> key

    # -- helpers
    def pk(s, k=0): return s.t[s.i + k].v if s.i + k < len(s.t) else None
    def tok(s): return s.t[s.i]
    def nx(s): s.i += 1; return s.t[s.i - 1]
    def err(s, m): raise SystemExit('%r: %s' % (s.t[min(s.i, len(s.t) - 1)], m))

    def ex(s, v):
        if s.pk() != v: s.err('expected %s' % v)
        return s.nx()

    def acc(s, v):
        if s.pk() == v: s.i += 1; return True
        return False

    QUAL = {'const', 'volatile', 'static', 'extern', 'struct', 'enum', 'union', 'typedef', 'inline'}

    def istype(s, k=0):
        v = s.pk(k)
        if s.i + k < len(s.t) and s.t[s.i + k].k != 'id': return False
        if s.lookup(v) is not None: return False
        return v in G.typedefs or v in ('const', 'volatile', 'struct', 'enum', 'union', 'unsigned',
                                        'void', 'double', 'static')

    def lookup(s, v):
        for sc in reversed(s.scopes):
            if v in sc: return sc[v]
        return None

    # -- declarations
    def specifiers(s):
        static = typedef = False
        T = None
        while True:
            v = s.pk()
            if v in ('const', 'volatile', 'extern', 'inline'): s.nx()
            elif v == 'static': static = True; s.nx()
            elif v == 'typedef': typedef = True; s.nx()
            elif v == 'unsigned':
                s.nx(); s.acc('int'); T = ('int', 'uint')
            elif v == 'void': s.nx(); T = 'void'
            elif v == 'double': s.nx(); T = 'double'
            elif v == 'struct': T = s.struct()
            elif v == 'enum': T = s.enum()
            elif T is None and v in G.typedefs and s.tok().k == 'id': s.nx(); T = G.typedefs[v]
            else: break
        if T is None: s.err('type expected')
        return T, static, typedef

    def struct(s):
        s.ex('struct')
        tag = s.nx().v if s.tok().k == 'id' else None
        if tag is None: G.anon += 1; tag = '_anon%d' % G.anon
        if s.pk() != '{':
            G.structs.setdefault(tag, Struct()); return ('struct', tag)
        st = G.structs.setdefault(tag, Struct())
        if st.size:                       # header already read for another file: reread
            st.fields, st.order, st.size = {}, [], 0
        s.ex('{')
        while not s.acc('}'):
            if s.pk() == 'union':
                s.nx(); s.ex('{')
                w = 0
                while not s.acc('}'):
                    T, _, _ = s.specifiers()
                    n, T = s.declarator(T); s.ex(';')
                    st.fields[n] = (st.size, T); st.order.append(n); w = max(w, sizeof(T))
                s.ex(';')
                st.size += w
                continue
            T, _, _ = s.specifiers()
            n, T = s.declarator(T); s.ex(';')
            st.fields[n] = (st.size, T); st.order.append(n); st.size += sizeof(T)
        return ('struct', tag)

    def enum(s):
        s.ex('enum'); s.ex('{')
        n = 0
        while not s.acc('}'):
            name = s.nx().v
            if s.acc('='):
                neg = s.acc('-'); n = int(s.nx().v, 0) * (-1 if neg else 1)
            G.enums[name] = n; n += 1
            s.acc(',')
        return ('int', 'enum')

    def declarator(s, T):
        while s.acc('*'):
            T = ('ptr', T)
            while s.pk() in ('const', 'volatile'): s.nx()
        if s.pk() == '(' and s.pk(1) == '*':      # function pointer
            s.nx(); s.nx(); name = s.nx().v; s.ex(')')
            ps, va = s.params()
            return name, ('ptr', ('fn', T, [p[1] for p in ps], va))
        name = s.nx().v if s.tok().k == 'id' else None
        if s.acc('['):
            n = None
            if s.pk() != ']': n = s.constexpr()
            s.ex(']'); T = ('arr', T, n)
        return name, T

    def constexpr(s):
        t = s.nx()
        if t.k == 'num': return int(t.v, 0)
        s.err('array size')

    def params(s):
        s.ex('(')
        ps, va = [], False
        if s.pk() == 'void' and s.pk(1) == ')': s.nx(); s.nx(); return ps, va
        while not s.acc(')'):
            if s.acc('...'): va = True
            else:
                T, _, _ = s.specifiers()
                n, T = s.declarator(T)
                if isinstance(T, tuple) and T[0] == 'arr': T = ('ptr', T[1])
                ps.append((n, T))
            s.acc(',')
        return ps, va

    def key(s, name, static):
        if not static: return name
        k = s.file[3:] + '_' + name if any(
            name in getattr(p, 'mine', ()) for p in ()) else name
        return k

    def unit(s):
        while s.i < len(s.t):
            if s.acc(';'): continue
            if s.pk() == 'extern' and s.tok().k == 'id' and s.t[s.i + 1].k == 'str':
                s.err('extern "C"')
            start = s.i
            T, static, typedef = s.specifiers()
            if s.acc(';'): continue
            name, D = s.declarator(T)
            if typedef:
                G.typedefs[name] = D; s.ex(';'); continue
            if s.pk() == '(':
                ps, va = s.params()
                k = s.fkey(name, static)
                info = dict(name=name, ret=D, params=ps, va=va, file=s.t[start].f, static=static)
                old = G.fns.get(k)
                if old is None: G.fns[k] = info
                else: info = old; 
                if s.acc(';'): continue
                G.fns[k].update(params=ps, file=s.t[start].f, ret=D)
                l0 = s.t[start].l
                body = Body(s, k, ps, D).block_top()
                G.bodies.append((k, dict(file=s.t[start].f, l0=l0, l1=s.t[s.i - 1].l, **body)))
                continue
            init = None
            if s.acc('='): init = s.ginit()
            s.ex(';')
            if isinstance(D, tuple) and D[0] == 'arr' and D[2] is None: D = ('arr', D[1], len(init))
            k = s.gkey(name)
            G.globs[k] = dict(name=name, type=D, init=init, file=s.t[start].f, l0=s.t[start].l,
                              l1=s.t[s.i - 1].l)
            s.static[name] = ('glob', k, D)

    def fkey(s, name, static):
        k = name if not static else name + '__' + s.file[3:]
        if static: s.static[name] = ('fn', k)
        return k

    def gkey(s, name): return name

    def ginit(s):
        if s.acc('{'):
            out = []
            while not s.acc('}'):
                out.append(s.ginit()); s.acc(',')
            return out
        t = s.nx()
        if t.k == 'num': return int(t.v, 0)
        if t.k == 'str': return ('str', unescape(t.v))
        if t.v == '__null': return None
        s.err('initialiser')


def unescape(lit):
    b, i, q = [], 1, lit[1:-1]
    E = {'n': 10, 't': 9, '\\': 92, '"': 34, "'": 39, '0': 0, 'r': 13}
    i = 0
    while i < len(q):
        if q[i] == '\\': b.append(E[q[i + 1]]); i += 2
        else: b.append(ord(q[i])); i += 1
    return b


# ---------------------------------------------------------------- function bodies
# An expression is (T, lean) ; an lvalue is ('reg', i, T) or ('mem', leanaddr, T).
def par(x): return x if re.fullmatch(r'[\w.]+', x) or (x[0] in '([' and balanced(x)) else '(' + x + ')'


def balanced(x):
    d = 0
    for i, c in enumerate(x):
        if c in '([': d += 1
        if c in ')]':
            d -= 1
            if d == 0 and i < len(x) - 1: return False
    return True


def num(n): return '.num %s' % (n if n >= 0 else '(%d)' % n)


def ity(t): return '.' + t if isinstance(t, str) else '(.common %s %s)' % (ity(t[1]), ity(t[2]))


SMALL = ('bool', 'char', 'i8', 'u8', 'i16', 'int')


def leaves(t): return {t} if isinstance(t, str) else leaves(t[1]) | leaves(t[2])


def common(a, b):
    """The type of an arithmetic expression with operands of types a and b.  Types no wider than
    `int` disappear next to `int`, and types no wider than `size_t` next to `size_t`; what is left
    is resolved in Lean (`Arch.it`) because it depends on the widths."""
    ls = leaves(a) | leaves(b)
    if 'size' in ls and not ls & {'i32', 'u32', 'i64', 'u64', 'uptr'}: return 'size'
    ls -= set(SMALL)
    if not ls: return 'int'
    t = 'int'
    for x in sorted(ls): t = x if t == 'int' and x == 'uint' else ('common', x, t)
    return t


class Body:
    def __init__(s, p, key, params, ret):
        s.p, s.ret, s.key = p, ret, key
        s.names, s.mems, s.va = [], [], None
        sc = {}
        for n, T in params:
            sc[n] = ('reg', len(s.names), T); s.names.append(n)
        s.np = len(params)
        p.scopes = [sc]
        s.addr = addr_taken(p.t, p.i)

    def block_top(s):
        st = s.block()
        s.p.scopes = []
        return dict(np=s.np, names=s.names, mems=s.mems, stmt=st, va=s.va)

    def block(s):
        p = s.p
        p.ex('{'); p.scopes.append({})
        out = []
        while not p.acc('}'): out += s.stmt()
        p.scopes.pop()
        return out

    def blk(s):
        return s.block() if s.p.pk() == '{' else s.stmt()

    def stmt(s):
        p = s.p
        if p.pk() == '{': return s.block()
        if p.acc(';'): return []
        if p.acc('if'):
            p.ex('('); c = s.rv(s.expr()); p.ex(')')
            a = s.blk()
            b = s.blk() if p.acc('else') else []
            return [('ite', c[1], a, b)]
        if p.acc('while'):
            p.ex('('); c = s.rv(s.expr()); p.ex(')')
            return [('loop', c[1], None, s.blk())]
        if p.acc('for'):
            p.ex('('); p.scopes.append({})
            pre = []
            if p.istype(): pre = s.decl()
            elif p.pk() == ';': p.nx()
            else: pre = [('expr', s.rv(s.expr())[1])]; p.ex(';')
            c = s.rv(s.expr()) if p.pk() != ';' else ('int', '.num 1'); p.ex(';')
            st = s.expr_any()[1] if p.pk() != ')' else None
            p.ex(')')
            b = s.blk(); p.scopes.pop()
            return pre + [('loop', c[1], st, b)]
        if p.acc('return'):
            if p.acc(';'): return [('ret', None)]
            e = s.conv(s.rv(s.expr()), s.ret); p.ex(';')
            return [('ret', e)]
        if p.acc('break'): p.ex(';'); return [('brk',)]
        if p.pk() == 'asm':
            while p.nx().v != ';': pass
            return []
        if p.istype(): return s.decl()
        if p.pk() == '(' and p.pk(1) == 'void' and p.pk(2) == ')':      # (void)x;
            p.i += 3; s.expr(); p.ex(';'); return []
        e = s.expr_any(); p.ex(';')
        return [('expr', e[1])]

    def decl(s):
        p = s.p
        T0, _, _ = p.specifiers()
        out = []
        while True:
            n, T = p.declarator(T0)
            agg = isinstance(T, tuple) and T[0] in ('struct', 'arr')
            i = len(s.names); s.names.append(n)
            if agg or n in s.addr:
                s.mems.append((i, sizeof(T)))
                p.scopes[-1][n] = ('mem', '.var %d' % i, T)
                if p.acc('='):
                    if not agg:
                        e = s.conv(s.rv(s.assign()), T)
                        out.append(('expr', '.store (.var %d) %s' % (i, par(e))))
                    else: out += s.structinit(i, T)
            else:
                p.scopes[-1][n] = ('reg', i, T)
                if p.acc('='):
                    e = s.conv(s.rv(s.assign()), T)
                    out.append(('expr', '.setv %d %s' % (i, par(e))))
                else: out.append(('undef', i))
            if not p.acc(','): break
        p.ex(';')
        return out

    def structinit(s, i, T):
        p = s.p
        st = G.structs[T[1]]
        p.ex('{')
        done, out = set(), []
        while not p.acc('}'):
            p.ex('.'); f = p.nx().v; p.ex('=')
            off, FT = st.fields[f]
            e = s.conv(s.rv(s.assign()), FT)
            out.append(('expr', '.store (.fld (.var %d) %d) %s' % (i, off, par(e))))
            done.add(off); p.acc(',')
        if done != {o for o, _ in st.fields.values()}: p.err('partial initialiser')
        return out

    # -- conversions
    def rv(s, e):
        """lvalue conversion; arrays decay to pointers"""
        if e[0] == 'val': return (e[1], e[2])
        if e[0] == 'reg': return (e[2], '.var %d' % e[1])
        T = e[2]
        if isinstance(T, tuple) and T[0] == 'arr': return (('ptr', T[1]), e[1])
        if isinstance(T, tuple) and T[0] == 'fn': return (('ptr', T), e[1])
        if isinstance(T, tuple) and T[0] == 'struct': s.p.err('struct value')
        return (T, '.load %s' % par(e[1]))

    def conv(s, e, T):
        F, x = e
        if F == T: return x
        if isint(T):
            if T[1] == 'bool': return '.tobool %s' % par(x)
            if isint(F):
                m = re.fullmatch(r'\.num (\d+)', x)
                if m and int(m.group(1)) < 128: return x
                return '.cast %s %s' % (ity(T[1]), par(x))
            if F == 'double': return '.dtoi %s %s' % (ity(T[1]), par(x))
            s.p.err('conversion %r to %r' % (F, T))
        if T == 'double' and isint(F): return '.itod %s' % par(x)
        if isptr(T) and isptr(F): return x
        if T == 'void': return x
        if T == 'va_list': return x
        s.p.err('conversion %r to %r' % (F, T))

    def expr_any(s):
        """an expression whose value is not used"""
        e = s.expr()
        return s.rv(e) if e[0] != 'val' else (e[1], e[2])

    # -- expressions: return ('val', T, lean) or an lvalue
    def expr(s): return s.assign()

    OPS = {'+=': '+', '-=': '-', '<<=': '<<', '*=': '*', '|=': '|', '&=': '&'}

    def assign(s):
        p = s.p
        l = s.ternary()
        o = p.pk()
        if o == '=':
            p.nx()
            if l[0] == 'val': p.err('lvalue')
            e = s.conv(s.rv(s.assign()), l[2])
            if l[0] == 'reg': return ('val', l[2], '.setv %d %s' % (l[1], par(e)))
            return ('val', l[2], '.store %s %s' % (par(l[1]), par(e)))
        if o in s.OPS:
            p.nx()
            e = s.rv(s.assign())
            return s.update(l, s.OPS[o], e, False)
        return l

    def update(s, l, o, e, post):
        T = l[2]
        if isptr(T):
            op = {'+': '.padd', '-': '.psub'}[o] + ' %d' % sizeof(T[1]); to = 'none'
        else:
            op = '.arith %s %s' % (s.AOP[o], ity(common(T[1], e[0][1]) if o != '<<' else common(T[1], 'int')))
            to = '(some %s)' % ity(T[1])
        w = 'true' if post else 'false'
        if l[0] == 'reg':
            return ('val', T, '.updv %d (%s) %s %s %s' % (l[1], op, to, w, par(e[1])))
        return ('val', T, '.upd %s (%s) %s %s %s' % (par(l[1]), op, to, w, par(e[1])))

    def ternary(s):
        p = s.p
        c = s.binary(0)
        if not p.acc('?'): return c
        a = s.rv(s.expr()); p.ex(':'); b = s.rv(s.ternary())
        c = s.rv(c)
        if isint(a[0]) and isint(b[0]):
            t = common(a[0][1], b[0][1]); T = ('int', t)
            a, b = s.conv(a, T), s.conv(b, T)
        else: T = a[0]; a, b = a[1], b[1]
        return ('val', T, '.cond %s %s %s' % (par(c[1]), par(a), par(b)))

    LEVELS = [['||'], ['&&'], ['|'], ['^'], ['&'], ['==', '!='], ['<', '<=', '>', '>='],
              ['<<', '>>'], ['+', '-'], ['*', '/', '%']]
    AOP = {'+': '.add', '-': '.sub', '*': '.mul', '/': '.div', '%': '.mod', '&': '.band', '|': '.bor',
           '<<': '.shl'}
    COP = {'==': '.eq', '!=': '.ne', '<': '.lt', '<=': '.le', '>': '.gt', '>=': '.ge'}

    def binary(s, lv):
        if lv == len(s.LEVELS): return s.unary()
        l = s.binary(lv + 1)
        while s.p.pk() in s.LEVELS[lv] and s.p.tok().k == 'op':
            o = s.p.nx().v
            r = s.binary(lv + 1)
            l = s.bin(o, s.rv(l), s.rv(r))
        return l

    def bin(s, o, a, b):
        (A, x), (B, y) = a, b
        I = ('int', 'int')
        if o == '&&': return ('val', I, '.land %s %s' % (par(x), par(y)))
        if o == '||': return ('val', I, '.lor %s %s' % (par(x), par(y)))
        if o in s.COP:
            if isint(A) and isint(B):
                return ('val', I, '.bin (.cmp %s %s) %s %s' % (s.COP[o], ity(common(A[1], B[1])), par(x), par(y)))
            if isptr(A) and isptr(B):
                return ('val', I, '.bin (.pcmp %s) %s %s' % (s.COP[o], par(x), par(y)))
            if A == B == 'double' and o == '==':
                return ('val', I, '.bin .deq %s %s' % (par(x), par(y)))
            s.p.err('comparison %r %r' % (A, B))
        if isptr(A) and isint(B) and o in '+-':
            return ('val', A, '.bin (%s %d) %s %s' % ({'+': '.padd', '-': '.psub'}[o], sizeof(A[1]), par(x), par(y)))
        if isint(A) and isint(B):
            t = common(A[1], B[1]) if o != '<<' else common(A[1], 'int')
            return ('val', ('int', t), '.bin (.arith %s %s) %s %s' % (s.AOP[o], ity(t), par(x), par(y)))
        s.p.err('operands %r %r' % (A, B))

    def unary(s):
        p = s.p
        v = p.pk()
        if p.tok().k == 'op':
            if v in ('++', '--'):
                p.nx(); l = s.unary()
                return s.update(l, v[0], (('int', 'int'), '.num 1'), False)
            if v == '!':
                p.nx(); e = s.rv(s.unary()); return ('val', ('int', 'int'), '.lnot %s' % par(e[1]))
            if v == '-':
                p.nx(); e = s.rv(s.unary())
                t = common(e[0][1], 'int')
                return ('val', ('int', t), '.neg %s %s' % (ity(t), par(e[1])))
            if v == '*':
                p.nx(); e = s.rv(s.unary())
                if not isptr(e[0]): p.err('deref')
                return ('mem', e[1], e[0][1])
            if v == '&':
                p.nx(); e = s.unary()
                if e[0] != 'mem': p.err('address')
                return ('val', ('ptr', e[2]), e[1])
            if v == '(' and p.istype(1):
                p.nx(); T, _, _ = p.specifiers(); _, T = p.declarator(T); p.ex(')')
                e = s.rv(s.unary())
                return ('val', T, s.conv(e, T))
        if v == 'sizeof':
            p.nx(); p.ex('(')
            if p.istype():
                T, _, _ = p.specifiers(); _, T = p.declarator(T)
            else: T = s.expr()[2]
            p.ex(')')
            return ('val', ('int', 'size'), num(sizeof(T)))
        return s.postfix()

    def args(s, ps, va):
        p = s.p
        out = []
        while not p.acc(')'):
            e = s.rv(s.assign())
            if len(out) < len(ps): out.append(s.conv(e, ps[len(out)]))
            elif va:
                if isint(e[0]): out.append(s.conv(e, ('int', common(e[0][1], 'int'))))
                else: out.append(e[1])
            else: p.err('too many arguments')
            p.acc(',')
        if len(out) < len(ps): p.err('too few arguments')
        return '[' + ', '.join(out) + ']'

    def postfix(s):
        p = s.p
        t = p.nx()
        if t.v == '(':
            e = s.expr(); p.ex(')')
        elif t.k == 'num': e = ('val', ('int', 'int'), num(int(t.v, 0)))
        elif t.k == 'chr': e = ('val', ('int', 'int'), num(unescape(t.v)[0]))
        elif t.k == 'str':
            b = unescape(t.v)
            while p.tok().k == 'str': b += unescape(p.nx().v)
            e = ('val', ('ptr', ('int', 'char')), '.str %s' % b)
        elif t.v == '__null': e = ('val', ('ptr', 'void'), '.null')
        elif t.v == '__int_max': e = ('val', ('int', 'int'), '.intMax')
        elif t.v == '__size_max': e = ('val', ('int', 'size'), '.sizeMax')
        elif t.v in G.enums and p.lookup(t.v) is None: e = ('val', ('int', 'int'), num(G.enums[t.v]))
        elif t.v in ('va_start', 'va_end'):
            p.ex('('); l = p.lookup(p.nx().v)
            while p.nx().v != ')': pass
            if t.v == 'va_start':
                if s.va is None: s.va = len(s.names); s.names.append('(variable arguments)')
                e = ('val', 'void', '.setv %d (.var %d)' % (l[1], s.va))
            else: e = ('val', 'void', '.num 0')
        elif t.k == 'id':
            l = p.lookup(t.v)
            if l is not None: e = l
            elif t.v in p.static and p.static[t.v][0] == 'glob':
                _, k, T = p.static[t.v]; e = ('mem', '.glob .%s' % k, T)
            elif p.pk() == '(':
                p.nx()
                k = p.static[t.v][1] if t.v in p.static else t.v
                if k in G.fns: f = G.fns[k]
                elif k in BASEFN:
                    f = dict(name=k, ret=BASEFN[k], params=[('', q) for q in LIBPARAMS[k]],
                             va=k in ('snprintf', 'sprintf'), file='libc', static=False)
                    G.fns[k] = f
                else: p.err('unknown function')
                f['used'] = True
                a = s.args([q[1] for q in f['params']], f['va'])
                e = ('val', f['ret'], '.call .%s %s' % (k, a))
            else: p.err('unknown name')
        else: p.err('expression')
        while True:
            v = p.pk()
            if v == '[':
                p.nx(); i = s.rv(s.expr()); p.ex(']')
                b = s.rv(e)
                e = ('mem', '.bin (.padd %d) %s %s' % (sizeof(b[0][1]), par(b[1]), par(i[1])), b[0][1])
            elif v in ('.', '->'):
                p.nx(); f = p.nx().v
                if v == '->':
                    b = s.rv(e); ST, addr = b[0][1], b[1]
                else: ST, addr = e[2], e[1]
                off, T = G.structs[ST[1]].fields[f]
                e = ('mem', '.fld %s %d' % (par(addr), off), T)
            elif v == '(':
                p.nx(); b = s.rv(e)
                if not isfnptr(b[0]): p.err('call')
                _, ret, ps, va = b[0][1]
                e = ('val', ret, '.callp %s %s' % (par(b[1]), s.args(ps, va)))
            elif v in ('++', '--'):
                p.nx()
                e = s.update(e, v[0], (('int', 'int'), '.num 1'), True)
            else: return e


def addr_taken(toks, i):
    """names of plain variables whose address is taken in the body starting at toks[i]"""
    d, out = 0, set()
    while True:
        v = toks[i].v
        if v == '{': d += 1
        if v == '}':
            d -= 1
            if d == 0: return out
        if v == '&' and toks[i + 1].k == 'id' and toks[i - 1].k == 'op' and \
                toks[i - 1].v not in (')', ']') and toks[i + 2].v not in ('->', '.', '[', '('):
            out.add(toks[i + 1].v)
        i += 1


# ---------------------------------------------------------------- output
LOOPS = []     # the name of the current function, then the loops found in it


def show(st, ind):
    sp = ' ' * ind
    if not st: return sp + '.skip'
    if len(st) == 1: return one(st[0], ind)
    return sp + '(.seq\n' + one(st[0], ind + 1) + '\n' + show(st[1:], ind + 1) + ')'


def one(x, ind):
    sp = ' ' * ind
    if x[0] == 'expr': return sp + '(.expr %s)' % par(x[1])
    if x[0] == 'undef': return sp + '(.undef %d)' % x[1]
    if x[0] == 'brk': return sp + '.brk'
    if x[0] == 'ret': return sp + ('(.ret %s)' % par(x[1]) if x[1] else '.retVoid')
    if x[0] == 'ite':
        return sp + '(.ite %s\n%s\n%s)' % (par(x[1]), show(x[2], ind + 1), show(x[3], ind + 1))
    if x[0] == 'loop':
        step = '(some %s)' % par(x[2]) if x[2] else 'none'
        text = '.loop %s %s\n%s' % (par(x[1]), step, show(x[3], 3))
        name = '%s_loop%d' % (LOOPS[0], len(LOOPS))
        LOOPS.append((name, text))
        return sp + name
    raise SystemExit(x[0])


def gcells(g):
    T, init = g['type'], g['init']
    def flat(T, init):
        if isinstance(T, tuple) and T[0] == 'arr':
            return sum((flat(T[1], init[k] if init else None) for k in range(T[2])), [])
        if isinstance(T, tuple) and T[0] == 'struct':
            fs, seen, out = G.structs[T[1]], set(), []
            for n in fs.order:
                o, F = fs.fields[n]
                if o not in seen: seen.add(o); out += flat(F, None)
            return out
        if isinstance(init, tuple): return ['.ptr (.lit %s) 0' % init[1]]
        if isptr(T): return ['.null']
        return ['.int %d' % (init or 0)]
    return flat(T, init)


def main():
    seen = {}
    for f in FILES:
        pre = Pre(); pre.file(f + '.c')
        toks = pre.out
        parser = P(toks, f)
        nb = len(G.bodies)
        parser.unit()
        seen[f] = G.bodies[nb:]
    defined = [k for k, _ in G.bodies]
    if len(set(defined)) != len(defined): raise SystemExit('duplicate function')
    ext = sorted(k for k, v in G.fns.items() if v.get('used') and k not in defined)
    os.makedirs(OUT, exist_ok=True)
    with open(os.path.join(OUT, 'Names.lean'), 'w') as o:
        o.write('/-! Generated by tools/csrc.py from /repo/mulib/*.c.  The functions and file-scope '
                'variables of mulib\nand the functions it calls that it does not define. -/\n\n'
                'namespace Mu.CS\n\n')
        o.write('/-- Every function defined in /repo/mulib/*.c, then every undefined function called '
                'there. -/\ninductive Fn where\n')
        for k in defined + ext: o.write('  | %s\n' % k)
        o.write('\n/-- The file-scope variables of /repo/mulib/*.c. -/\ninductive Glob where\n')
        for k in G.globs: o.write('  | %s\n' % k)
        o.write('  deriving DecidableEq\n\nend Mu.CS\n')
    mods = []
    for f in FILES:
        mod = ''.join(w.capitalize() for w in f.split('_'))
        mods.append(mod)
        with open(os.path.join(OUT, mod + '.lean'), 'w') as o:
            o.write('import Verif.C.Src\n\n/-! Generated by tools/csrc.py from /repo/mulib/%s.c: do '
                    'not edit. -/\n\nnamespace Mu.CS.Src\n' % f)
            gs = [(k, g) for k, g in G.globs.items() if g['file'] == f + '.c']
            for k, g in gs:
                o.write('\n/-- Initial contents of `%s`, %s:%d%s. -/\ndef init_%s : List CVal :=\n  [%s]\n' % (
                    g['name'], g['file'], g['l0'], '' if g['l1'] == g['l0'] else '-%d' % g['l1'], k,
                    ',\n   '.join(gcells(g))))
            for k, b in seen[f]:
                loc = ', '.join('%d %s' % x for x in enumerate(b['names']))
                LOOPS[:] = [k]
                body = show(b['stmt'], 4)
                for name, text in LOOPS[1:]:
                    o.write('\n/-- A loop of `%s`, %s:%d-%d. -/\ndef %s : Stmt :=\n  %s\n' % (
                        G.fns[k]['name'], b['file'], b['l0'], b['l1'], name, text))
                o.write('\n/-- `%s`, %s:%d%s.%s -/\n' % (
                    G.fns[k]['name'], b['file'], b['l0'],
                    '' if b['l1'] == b['l0'] else '-%d' % b['l1'],
                    '  Locals: %s.' % loc if loc else ''))
                o.write('def %s : FunDef where\n  params := %d\n  locals := %d\n%s%s  body :=\n%s\n' % (
                    k, b['np'], len(b['names']) - b['np'],
                    '  mems := [%s]\n' % ', '.join('(%d, %d)' % m for m in b['mems']) if b['mems'] else '',
                    '  va := some %d\n' % b['va'] if b['va'] is not None else '', body))
            o.write('\nend Mu.CS.Src\n')
    with open(os.path.join(OUT, 'Prog.lean'), 'w') as o:
        for m in mods: o.write('import Verif.Src.%s\n' % m)
        o.write('\n/-! Generated by tools/csrc.py: the whole library as one program. -/\n\n'
                'namespace Mu.CS\n\n/-- The body of every function defined in /repo/mulib/*.c. -/\n'
                'def prog : Fn → Option FunDef\n')
        for k in defined: o.write('  | .%s => some Src.%s\n' % (k, k))
        if ext: o.write('  | _ => none\n')
        o.write('\n/-- Initial contents of the file-scope variables of /repo/mulib/*.c. -/\n'
                'def globInit : Glob → List CVal\n')
        for k in G.globs: o.write('  | .%s => Src.init_%s\n' % (k, k))
        o.write('\nend Mu.CS\n')
    print('%d functions, %d external: %s; %d globals' % (len(defined), len(ext), ' '.join(ext), len(G.globs)))


main()
