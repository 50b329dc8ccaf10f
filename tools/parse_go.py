import re,sys
src=open('/repo/logstash_config.go').read()
start=src.index('var g = &grammar{')
end=src.index('func (c *current) oninit3()')
text=src[start+len('var g = '):end]
# tokenizer
tok_re=re.compile(r'\s+|("(?:\\.|[^"\\])*")|(`[^`]*`)|(\'(?:\\.|[^\'\\])*\')|([A-Za-z_][A-Za-z0-9_]*)|(\d+)|(.)',re.S)
toks=[]
i=0
while i<len(text):
    m=tok_re.match(text,i); i=m.end()
    if m.group(0).strip()=='' : continue
    toks.append(m.group(0))
pos=0
def peek(): return toks[pos] if pos<len(toks) else None
def nxt():
    global pos; t=toks[pos]; pos+=1; return t
def expect(t):
    x=nxt(); assert x==t,(x,t,pos)
def value():
    t=peek()
    if t=='&':
        nxt(); ty=nxt(); return (ty,body())
    if t=='(':  # (*parser).callon
        expect('(');expect('*');expect('parser');expect(')');expect('.'); return ('fn',nxt())
    if t=='[':
        # slice type
        ty=''
        while peek()!='{': 
            x=nxt(); ty+=x
            if ty=='[]interface': expect('{'); expect('}'); ty+='{}'; break
        return ('slice',ty,listbody())
    if t[0] in '"`': 
        nxt(); 
        return ('str',t)
    if t[0]=="'": nxt(); return ('chr',t)
    if t=='{': return ('anon',body())
    if t in('true','false'): nxt(); return ('bool',t)
    if t.isdigit(): nxt(); return ('int',int(t))
    if re.match(r'[A-Za-z_]',t):
        nxt()
        assert peek()=='{',(t,peek()); return (t,body())
    raise Exception((t,pos))
def body():
    expect('{'); d={}
    while peek()!='}':
        k=nxt(); expect(':'); v=value(); d[k]=v
        if peek()==',': nxt()
    expect('}'); return d
def listbody():
    expect('{'); l=[]
    while peek()!='}':
        l.append(value())
        if peek()==',': nxt()
    expect('}'); return l
g=value()
# callbacks
calls={}
for m in re.finditer(r'func \(c \*current\) (on\w+)\(([^)]*)\) ([^\n]*)\{\n(.*?)\n\n?\}',src,re.S):
    calls[m.group(1)]=(m.group(2),m.group(3).strip(),m.group(4).strip())
binds={}
for m in re.finditer(r'func \(p \*parser\) call(on\w+)\(\) ([^\n]*)\{\n\tstack := .*?\n\t_ = stack\n\treturn p\.cur\.(on\w+)\((.*?)\)\n\}',src,re.S):
    assert m.group(1)==m.group(3)
    binds[m.group(1)]=m.group(4)
if __name__=='__main__':
    S={}
    for k,(a,r,b) in calls.items():
        S.setdefault((b,a,binds[k],r),[]).append(k)
    for k,v in sorted(S.items()): print(len(v),k)
